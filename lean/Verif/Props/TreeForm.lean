import Verif.Props.TreeTrip
import Verif.Props.ExceptionHeader

/-
C124: what messages with parts are read as, told from their lines.
-/

set_option linter.unusedSectionVars false

namespace Sb.Props
open Py Py.Text Sb.Mail Sb.Tokenize Sb.Strip

/-! ### The bound of the depth -/

theorem fields_count : ∀ (ls : List Txt) (f : Bool) (cur : List Txt),
    (parseFields f cur ls).back.length + (parseFields f cur ls).headers.length ≤
      ls.length + (if cur = [] then 0 else 1) := by
  intro ls
  induction ls with
  | nil => intro f cur; rw [parseFields]; split <;> simp
  | cons l r ih =>
    intro f cur
    rw [parseFields]
    split
    · refine (ih false _).trans ?_
      split <;> simp_all
    · simp only [List.length_append, List.length_cons]
      have h1 : ∀ x : List Txt, ((if x = [] then [] else [sourceParse x]) : Headers).length = if x = [] then 0 else 1 := by
        intro x; split <;> simp
      rw [h1]
      have i1 := ih false []
      have i2 := ih false [l]
      simp only [if_true] at i1
      rw [if_neg (by simp)] at i2
      split
      · split
        · simp only; omega
        · split
          · simp
          · omega
      · split
        · omega
        · omega

theorem takeHeaders_count (ls : List Txt) : (takeHeaders ls).1.length + (takeHeaders ls).2.length ≤ ls.length := by
  have := (takeHeaders_sublist ls).length_le
  simpa using this

theorem rest_count (ls : List Txt) : ((parseFields true [] (takeHeaders ls).1).back ++ (takeHeaders ls).2).length +
    (parseFields true [] (takeHeaders ls).1).headers.length ≤ ls.length := by
  have h1 := fields_count (takeHeaders ls).1 true []
  have h2 := takeHeaders_count ls
  simp only [if_true, List.length_append] at *
  omega

theorem preamble_count (b : Txt) (ls : List Txt) : ∀ r, (preambleOf b ls).2 = some r → r.length < ls.length := by
  induction ls with
  | nil => intro r hr; rw [preambleOf] at hr; cases hr
  | cons l ls ih =>
    intro r hr
    rw [preambleOf] at hr
    split at hr
    · have := ih r hr; simp; omega
    · cases hr
    · cases hr; simp

/-- How much depth is enough. -/
def enough (d : Bool) (ls : List Txt) : Nat := 2 * ls.length + 1 + d.toNat

theorem depth_enough (T : Types) (hT : T.kind [] false ≠ .message) : ∀ (n m : Nat) (d : Bool) (ls : List Txt),
    enough d ls ≤ n → enough d ls ≤ m → readTree T n d ls = readTree T m d ls := by
  intro n
  induction n with
  | zero => intro m d ls h; unfold enough at h; omega
  | succ n ih =>
    intro m d ls hn hm
    cases m with
    | zero => unfold enough at hm; omega
    | succ m =>
      rw [readTree, readTree]
      have hc := rest_count ls
      revert hc
      generalize (parseFields true [] (takeHeaders ls).1).headers = hs
      generalize (parseFields true [] (takeHeaders ls).1).back ++ (takeHeaders ls).2 = rest
      intro hc
      cases hk : T.kind hs d with
      | text => rfl
      | message =>
        simp only
        have hlt : enough false rest + 1 ≤ enough d ls := by
          unfold enough
          cases d with
          | true => simp; omega
          | false =>
            have : hs ≠ [] := by rintro rfl; exact hT hk
            have := List.length_pos_of_ne_nil this
            simp; omega
        rw [ih m false rest (by omega) (by omega)]
      | multipart o dg =>
        cases o with
        | none => rfl
        | some b =>
          simp only
          cases hp : preambleOf b rest with
          | mk p o =>
            cases o with
            | none => rfl
            | some r =>
              have h1 := preamble_count b rest r (by rw [hp])
              simp only
              congr 1
              refine List.map_congr_left ?_
              intro s hs'
              have h2 := (((segments_sublist b r true).2.1 s hs').1).length_le
              have : enough dg s + 1 ≤ enough d ls := by
                unfold enough
                cases dg <;> cases d <;> simp <;> omega
              rw [ih m dg s (by omega) (by omega)]

/-! ### Lines -/

/-- A line of the headers. -/
def HeadLine (l : Txt) : Prop :=
  OneLine l ∧ (txt "From " <+: l ∨ (∃ n v, FieldName n ∧ l = n ++ 58 :: v) ∨ ∃ c r, (c = 32 ∨ c = 9) ∧ l = c :: r)

/-- The lines as a text. -/
def lf (ls : List Txt) : Txt := ls.flatMap (· ++ [10])

theorem readLines_lfs {ls : List Txt} (h : ∀ l ∈ ls, OneLine l) (r : Txt) :
    readLines (lf ls ++ r) = ls.map (· ++ [10]) ++ readLines r := by
  induction ls with
  | nil => rfl
  | cons l ls ih =>
    have e : lf (l :: ls) ++ r = l ++ 10 :: (lf ls ++ r) := by simp [lf]
    rw [e, readLines_lf (h l (by simp)), ih (fun x hx => h x (by simp [hx]))]
    rfl

theorem headLine_is {l : Txt} (h : HeadLine l) : isHeaderLine (l ++ [10]) = true := by
  unfold isHeaderLine
  rcases h.2 with h | ⟨n, v, hn, rfl⟩ | ⟨c, r, hc, rfl⟩
  · have : (txt "From ").isPrefixOf (l ++ [10]) = true :=
      List.isPrefixOf_iff_prefix.2 (h.trans (List.prefix_append _ _))
    simp [this]
  · have : (n ++ 58 :: v ++ [10]).dropWhile isFieldChar = 58 :: v ++ [10] := by
      rw [List.append_assoc, List.dropWhile_append_of_pos]
      · rfl
      · intro c hc
        have := hn.2 c hc
        simp [isFieldChar, this]
    rw [this]
    simp
  · rcases hc with rfl | rfl <;> simp [startsBlank, Mail.isBlank]

theorem takeHeaders_lf {hl : List Txt} (h : ∀ l ∈ hl, HeadLine l) (x : List Txt) :
    takeHeaders (hl.map (· ++ [10]) ++ [10] :: x) = (hl.map (· ++ [10]), x) := by
  induction hl with
  | nil => rfl
  | cons l hl ih =>
    rw [List.map_cons, List.cons_append, takeHeaders, if_pos (headLine_is (h l (by simp))),
      ih (fun y hy => h y (by simp [hy]))]

theorem takeHeaders_only {hl : List Txt} (h : ∀ l ∈ hl, HeadLine l) :
    takeHeaders (hl.map (· ++ [10])) = (hl.map (· ++ [10]), []) := by
  induction hl with
  | nil => rfl
  | cons l hl ih =>
    rw [List.map_cons, takeHeaders, if_pos (headLine_is (h l (by simp))), ih (fun y hy => h y (by simp [hy]))]

theorem back_from : ∀ (ls : List Txt) (f : Bool) (cur : List Txt),
    ∀ l ∈ (parseFields f cur ls).back, txt "From " <+: l := by
  intro ls
  induction ls with
  | nil => intro f cur l hl; rw [parseFields] at hl; cases hl
  | cons l r ih =>
    intro f cur x hx
    rw [parseFields] at hx
    split at hx
    · exact ih _ _ x hx
    · simp only at hx
      split at hx
      · rename_i hp
        split at hx
        · exact ih _ _ x hx
        · split at hx
          · simp only [List.mem_singleton] at hx
            subst hx
            exact List.isPrefixOf_iff_prefix.1 hp
          · exact ih _ _ x hx
      · split at hx
        · exact ih _ _ x hx
        · exact ih _ _ x hx

theorem from_unsep (b : Txt) {l : Txt} (h : txt "From " <+: l) : sepOf b l = none := by
  obtain ⟨r, rfl⟩ := h
  rfl

/-- The headers of a text that consists of header lines. -/
def headOf (hl : List Txt) : Headers := (readMessage (lf hl)).headers

theorem headOf_eq {hl : List Txt} (h : ∀ l ∈ hl, HeadLine l) :
    headOf hl = (parseFields true [] (hl.map (· ++ [10]))).headers := by
  have e := readLines_lfs (fun l hl => (h l hl).1) []
  rw [List.append_nil] at e
  unfold headOf readMessage
  simp only [e, readLines, List.append_nil, takeHeaders_only h]

/-- The lines that are put back belong to the body. -/
def backOf (hl : List Txt) : List Txt := (parseFields true [] (hl.map (· ++ [10]))).back

theorem readTree_lf (T : Types) (n : Nat) (d : Bool) {hl : List Txt} (h : ∀ l ∈ hl, HeadLine l) (x : List Txt) :
    readTree T (n + 1) d (hl.map (· ++ [10]) ++ [10] :: x) =
      match T.kind (headOf hl) d with
      | .text => .text (headOf hl) (backOf hl ++ x).flatten
      | .message => .inner (headOf hl) (readTree T n false (backOf hl ++ x))
      | .multipart none _ => .uncut (headOf hl) (backOf hl ++ x).flatten none
      | .multipart (some b) dg =>
        match preambleOf b (backOf hl ++ x) with
        | (p, none) => .uncut (headOf hl) p.flatten (some [])
        | (p, some r) =>
          .cut (headOf hl) (if p = [] then none else some (p.dropLast.flatten ++ cutEnd (p.getLastD [])))
            ((segments b true r).1.map fun s => trimLast (readTree T n dg s))
            ((segments b true r).2.map List.flatten) := by
  rw [readTree, headOf_eq h, takeHeaders_lf h]
  rfl

theorem unsep_lf {b : Txt} (hb : OneLine b) {ls : List Txt} (h : ∀ l ∈ ls, OneLine l ∧ ¬ Separates b l) :
    Unsep b (ls.map (· ++ [10])) := by
  intro l hl
  obtain ⟨x, hx, rfl⟩ := List.mem_map.1 hl
  exact sep_none_end hb (h x hx).1 (by simp [EndOf]) (h x hx).2

theorem back_unsep (b : Txt) (hl : List Txt) : Unsep b (backOf hl) := by
  intro l h
  exact from_unsep b (back_from _ _ _ l h)

theorem sep_blank (b : Txt) (f : Bool) {w : Txt} (hw : ∀ c ∈ w, c = 32 ∨ c = 9) :
    sepOf b (txt "--" ++ b ++ ((if f then txt "--" else []) ++ w) ++ [10]) = some f := by
  have hd : (w ++ [10]).dropWhile Mail.isBlank = [10] := by
    rw [List.dropWhile_append_of_pos (by intro c hc; rcases hw c hc with rfl | rfl <;> rfl)]
    rfl
  have e : txt "--" ++ b ++ ((if f then txt "--" else []) ++ w) ++ [10] =
      45 :: 45 :: b ++ ((if f then txt "--" else []) ++ (w ++ [10])) := by simp [txt]
  rw [e]
  unfold sepOf
  rw [if_pos (by rw [List.isPrefixOf_iff_prefix]; exact List.prefix_append _ _)]
  have e1 : (45 :: 45 :: b ++ ((if f then txt "--" else []) ++ (w ++ [10]))).drop (b.length + 2) =
      (if f then txt "--" else []) ++ (w ++ [10]) := by simp
  simp only [e1]
  cases f with
  | true =>
    have e2 : (txt "--").isPrefixOf (txt "--" ++ (w ++ [10])) = true := by
      rw [List.isPrefixOf_iff_prefix]; exact List.prefix_append _ _
    have e3 : (txt "--" ++ (w ++ [10])).drop 2 = w ++ [10] := rfl
    simp only [if_true, e2, e3, hd]
    simp
  | false =>
    have e2 : (txt "--").isPrefixOf (w ++ [10]) = false := by
      cases w with
      | nil => rfl
      | cons c w => rcases hw c (by simp) with rfl | rfl <;> rfl
    simp only [Bool.false_eq_true, if_false, List.nil_append, e2, hd]
    simp

theorem body_lf {hl pl : List Txt} (h : ∀ l ∈ hl, HeadLine l) (hp : ∀ l ∈ pl, OneLine l) :
    (readMessage (lf hl ++ 10 :: lf pl)).body = (backOf hl ++ pl.map (· ++ [10])).flatten := by
  have e1 := readLines_lfs (fun l hl => (h l hl).1) (10 :: lf pl)
  have e2 : readLines (10 :: lf pl) = [10] :: readLines (lf pl) := readLines_lf (l := []) (by simp [OneLine]) (lf pl)
  have e3 := readLines_lfs hp []
  rw [List.append_nil] at e3
  unfold readMessage
  simp only [e1, e2, e3, takeHeaders_lf h, backOf]
  simp [readLines]

theorem preamble_end {b : Txt} {p : List Txt} (hp : Unsep b p) {l : Txt}
    (hl : sepOf b l = some true) (r : List Txt) : preambleOf b (p ++ l :: r) = (p, none) := by
  induction p with
  | nil => simp [preambleOf, hl]
  | cons x p ih =>
    rw [List.cons_append, preambleOf, hp x (by simp)]
    simp only
    rw [ih (fun y hy => hp y (by simp [hy]))]

theorem readLines_nl (r : Txt) : readLines (10 :: r) = [10] :: readLines r :=
  readLines_lf (l := []) (by simp [OneLine]) r

theorem sep_oneLine {b l : Txt} (hb : OneLine b) (h : Separates b l) : OneLine l := by
  obtain ⟨w, hw, h⟩ := h
  intro c hc
  have hw' : ∀ c ∈ w, c ≠ 13 ∧ c ≠ 10 := by intro c hc; rcases hw c hc with rfl | rfl <;> decide
  have hd : ∀ c ∈ txt "--", c ≠ 13 ∧ c ≠ 10 := by decide
  rcases h with rfl | rfl
  · simp only [List.mem_append] at hc
    rcases hc with (hc | hc) | hc
    · exact hd c hc
    · exact hb c hc
    · exact hw' c hc
  · simp only [List.mem_append] at hc
    rcases hc with ((hc | hc) | hc) | hc
    · exact hd c hc
    · exact hb c hc
    · exact hd c hc
    · exact hw' c hc

theorem sep_some_lf {b l : Txt} (h : Separates b l) : ∃ f, sepOf b (l ++ [10]) = some f :=
  Option.ne_none_iff_exists'.1 (sep_some h (by simp [EndOf]))

/-! ### The properties -/

/-- **C124.** A boundary line with two hyphens at its end, before any other boundary line,
ends the message: it has no parts, and what comes after the line is lost. -/
theorem C124_ended (T : Types) (hl pl : List Txt) (b w r sub : Txt) (hh : ∀ l ∈ hl, HeadLine l)
    (hc : T.ctype (headOf hl) false = txt "multipart/" ++ sub) (hb : T.boundary (headOf hl) = some b) (hob : OneLine b)
    (hp : ∀ l ∈ pl, OneLine l ∧ ¬ Separates b l) (hw : ∀ c ∈ w, c = 32 ∨ c = 9) :
    readMail T (lf hl ++ 10 :: (lf pl ++ (txt "--" ++ b ++ (txt "--" ++ w) ++ 10 :: r))) =
      .uncut (headOf hl) (readMessage (lf hl ++ 10 :: lf pl)).body (some []) := by
  have hs : sepOf b (txt "--" ++ b ++ (txt "--" ++ w) ++ [10]) = some true := sep_blank b true hw
  have ho : OneLine (txt "--" ++ b ++ (txt "--" ++ w)) :=
    sep_oneLine hob ⟨w, hw, .inr (by simp)⟩
  rw [readMail, readLines_lfs (fun l hl => (hh l hl).1), readLines_nl, readLines_lfs (fun l hl => (hp l hl).1),
    readLines_lf ho, readTree_lf T _ _ hh, kind_multi hc, hb]
  simp only
  rw [← List.append_assoc, preamble_end _ hs]
  · simp only
    rw [body_lf hh (fun l hl => (hp l hl).1)]
  · intro l hl
    rcases List.mem_append.1 hl with hl | hl
    · exact back_unsep b _ l hl
    · exact unsep_lf hob hp l hl

/-- **C124.** A further boundary line directly after the first one does not matter, even if
it has two hyphens at its end. -/
theorem C124_double (T : Types) (hT : T.ctype [] false = txt "text/plain") (hl pl : List Txt) (b w d r sub : Txt)
    (hh : ∀ l ∈ hl, HeadLine l) (hc : T.ctype (headOf hl) false = txt "multipart/" ++ sub)
    (hb : T.boundary (headOf hl) = some b) (hob : OneLine b)
    (hp : ∀ l ∈ pl, OneLine l ∧ ¬ Separates b l) (hw : ∀ c ∈ w, c = 32 ∨ c = 9) (hd : Separates b d) :
    readMail T (lf hl ++ 10 :: (lf pl ++ (txt "--" ++ b ++ w ++ 10 :: (d ++ 10 :: r)))) =
      readMail T (lf hl ++ 10 :: (lf pl ++ (txt "--" ++ b ++ w ++ 10 :: r))) := by
  have hs : sepOf b (txt "--" ++ b ++ w ++ [10]) = some false := sep_blank b false hw
  have ho : OneLine (txt "--" ++ b ++ w) := sep_oneLine hob ⟨w, hw, .inl rfl⟩
  obtain ⟨f, hf⟩ := sep_some_lf hd
  have hk : T.kind [] false ≠ .message := by
    rw [kind_text (main := txt "text") (sub := txt "plain") (by decide) (by rw [hT]; rfl)
      (by unfold PrintsAsText; decide)]
    simp
  have e1 : ∀ x, readLines (lf hl ++ 10 :: (lf pl ++ (txt "--" ++ b ++ w ++ 10 :: x))) =
      hl.map (· ++ [10]) ++ [10] :: (pl.map (· ++ [10]) ++ (txt "--" ++ b ++ w ++ [10]) :: readLines x) := by
    intro x
    rw [readLines_lfs (fun l hl => (hh l hl).1), readLines_nl, readLines_lfs (fun l hl => (hp l hl).1), readLines_lf ho]
  have hu : Unsep b (backOf hl ++ pl.map (· ++ [10])) := by
    intro l hl
    rcases List.mem_append.1 hl with hl | hl
    · exact back_unsep b _ l hl
    · exact unsep_lf hob hp l hl
  rw [readMail, readMail, e1, e1, readLines_lf (sep_oneLine hob hd)]
  generalize hN : 2 * (hl.map (· ++ [10]) ++ [10] :: (pl.map (· ++ [10]) ++
    (txt "--" ++ b ++ w ++ [10]) :: readLines r)).length + 2 = N
  generalize hM : 2 * (hl.map (· ++ [10]) ++ [10] :: (pl.map (· ++ [10]) ++
    (txt "--" ++ b ++ w ++ [10]) :: (d ++ [10]) :: readLines r)).length + 2 = M
  have hNM : N ≤ M := by
    rw [← hN, ← hM]; simp only [List.length_append, List.length_cons]; omega
  rw [depth_enough T hk N M false (hl.map (· ++ [10]) ++ [10] :: (pl.map (· ++ [10]) ++
    (txt "--" ++ b ++ w ++ [10]) :: readLines r)) (by rw [enough, ← hN]; simp) (by
      refine le_trans ?_ hNM; rw [enough, ← hN]; simp)]
  obtain ⟨M', rfl⟩ : ∃ M', M = M' + 1 := ⟨M - 1, by omega⟩
  rw [readTree_lf T _ _ hh, readTree_lf T _ _ hh, kind_multi hc, hb]
  simp only
  rw [← List.append_assoc, ← List.append_assoc, preamble_lines hu hs, preamble_lines hu hs]
  simp only
  have : segments b true ((d ++ [10]) :: readLines r) = segments b true (readLines r) := by
    rw [segments.eq_2, hf]
    simp
  rw [this]

/-- A part: the lines of its headers and those of its text. -/
def partText (p : List Txt × List Txt) : Txt := lf p.1 ++ 10 :: lf p.2

def partLines (p : List Txt × List Txt) : List Txt := p.1.map (· ++ [10]) ++ [10] :: p.2.map (· ++ [10])

theorem readLines_part {p : List Txt × List Txt} (h : ∀ l ∈ p.1 ++ p.2, OneLine l) (r : Txt) :
    readLines (partText p ++ r) = partLines p ++ readLines r := by
  have e : partText p ++ r = lf p.1 ++ 10 :: (lf p.2 ++ r) := by simp [partText]
  rw [e, readLines_lfs (fun l hl => h l (by simp [hl])), readLines_nl, readLines_lfs (fun l hl => h l (by simp [hl]))]
  simp [partLines]

theorem readLines_parts {b : Txt} (hb : OneLine (txt "--" ++ b)) (ps : List (List Txt × List Txt))
    (h : ∀ p ∈ ps, ∀ l ∈ p.1 ++ p.2, OneLine l) (r : Txt) :
    readLines (ps.flatMap (fun p => txt "--" ++ b ++ 10 :: partText p) ++ r) =
      ps.flatMap (fun p => (txt "--" ++ b ++ [10]) :: partLines p) ++ readLines r := by
  induction ps with
  | nil => rfl
  | cons p ps ih =>
    have e : (p :: ps).flatMap (fun p => txt "--" ++ b ++ 10 :: partText p) ++ r =
        (txt "--" ++ b) ++ 10 :: (partText p ++ (ps.flatMap (fun p => txt "--" ++ b ++ 10 :: partText p) ++ r)) := by
      simp
    rw [e, readLines_lf hb, readLines_part (h p (by simp)), ih (fun q hq => h q (by simp [hq]))]
    simp

theorem cutEnd_lf {ls : List Txt} (h : ∀ l ∈ ls, ∃ y, OneLine y ∧ l = y ++ [10]) :
    cutEnd ls.flatten = ls.flatten.dropLast := by
  rcases List.eq_nil_or_concat ls with rfl | ⟨a, l, rfl⟩
  · rfl
  · obtain ⟨y, hy, rfl⟩ := h l (by simp)
    have e : (a.concat (y ++ [10])).flatten = (a.flatten ++ y) ++ [10] := by simp
    rw [e, List.dropLast_concat]
    have hn : ∀ r, (a.flatten ++ y).reverse ≠ 13 :: r := by
      intro r hr
      have h13 : 13 ∈ (a.flatten ++ y) := by rw [← List.mem_reverse, hr]; simp
      rcases List.mem_append.1 h13 with h1 | h1
      · obtain ⟨l, hl, hm⟩ := List.mem_flatten.1 h1
        obtain ⟨z, hz, rfl⟩ := h l (by simp [hl])
        rcases List.mem_append.1 hm with hm | hm
        · exact (hz 13 hm).1 rfl
        · simp at hm
      · exact (hy 13 h1).1 rfl
    rw [cutEnd, List.reverse_append]
    simp only [List.reverse_singleton, List.cons_append, List.nil_append]
    rw [List.reverse_reverse]

theorem back_lines {hl : List Txt} (h : ∀ l ∈ hl, HeadLine l) : ∀ l ∈ backOf hl, ∃ y, OneLine y ∧ l = y ++ [10] := by
  intro l hm
  have := (parseFields_backs (hl.map (· ++ [10])) true []).subset hm
  obtain ⟨y, hy, rfl⟩ := List.mem_map.1 this
  exact ⟨y, (h y hy).1, rfl⟩

theorem body_cut {hl pl : List Txt} (h : ∀ l ∈ hl, HeadLine l) (hp : ∀ l ∈ pl, OneLine l) :
    cutEnd (backOf hl ++ pl.map (· ++ [10])).flatten = (readMessage (lf hl ++ 10 :: lf pl)).body.dropLast := by
  rw [body_lf h hp, cutEnd_lf]
  intro l hl
  rcases List.mem_append.1 hl with hl | hl
  · exact back_lines h l hl
  · obtain ⟨y, hy, rfl⟩ := List.mem_map.1 hl
    exact ⟨y, hp y hy, rfl⟩

theorem preamble_cut {p : List Txt} (h : ∀ l ∈ p, ∃ y, OneLine y ∧ l = y ++ [10]) :
    p.dropLast.flatten ++ cutEnd (p.getLastD []) = p.flatten.dropLast := by
  rcases List.eq_nil_or_concat p with rfl | ⟨a, l, rfl⟩
  · rfl
  · obtain ⟨y, hy, rfl⟩ := h l (by simp)
    have e : (a.concat (y ++ [10])).flatten = (a.flatten ++ y) ++ [10] := by simp
    rw [e, List.dropLast_concat]
    simp only [List.concat_eq_append, List.dropLast_concat, List.getLastD_concat]
    rw [cutEnd_line hy (by simp [EndOf])]

/-- **C124.** What a multipart message whose parts are texts is read as: the lines before
the first boundary, the headers and the text of each part in their order, and what follows
the last boundary.  The newline before a boundary belongs to the boundary. -/
theorem C124_read (T : Types) (hl pl : List Txt) (ps : List (List Txt × List Txt)) (b r sub : Txt)
    (hh : ∀ l ∈ hl, HeadLine l) (hc : T.ctype (headOf hl) false = txt "multipart/" ++ sub)
    (hb : T.boundary (headOf hl) = some b) (hob : OneLine b) (hne : ps ≠ [])
    (hp : ∀ l ∈ pl, OneLine l ∧ ¬ Separates b l)
    (hps : ∀ p ∈ ps, (∀ l ∈ p.1, HeadLine l) ∧ (∀ l ∈ p.1 ++ p.2, OneLine l ∧ ¬ Separates b l) ∧
      ∃ main sub', 47 ∉ main ∧ T.ctype (headOf p.1) (sub == txt "digest") = main ++ 47 :: sub' ∧ PrintsAsText main sub') :
    readMail T (lf hl ++ 10 :: (lf pl ++ (ps.flatMap (fun p => txt "--" ++ b ++ 10 :: partText p) ++
        (txt "--" ++ b ++ txt "--" ++ 10 :: r)))) =
      .cut (headOf hl)
        (if (readMessage (lf hl ++ 10 :: lf pl)).body = [] then none
          else some (readMessage (lf hl ++ 10 :: lf pl)).body.dropLast)
        (ps.map fun p => .text (headOf p.1) (readMessage (partText p)).body.dropLast) (some r) := by
  have hm : sepOf b (txt "--" ++ b ++ [10]) = some false := by
    have := sep_blank b false (w := []) (by simp)
    simpa using this
  have he : sepOf b (txt "--" ++ b ++ txt "--" ++ [10]) = some true := by
    have := sep_blank b true (w := []) (by simp)
    simpa using this
  have ho : OneLine (txt "--" ++ b) := sep_oneLine hob ⟨[], by simp, .inl (by simp)⟩
  have ho2 : OneLine (txt "--" ++ b ++ txt "--") := sep_oneLine hob ⟨[], by simp, .inr (by simp)⟩
  have hu : Unsep b (backOf hl ++ pl.map (· ++ [10])) := by
    intro l hl
    rcases List.mem_append.1 hl with hl | hl
    · exact back_unsep b _ l hl
    · exact unsep_lf hob hp l hl
  have hlines : ∀ l ∈ backOf hl ++ pl.map (· ++ [10]), ∃ y, OneLine y ∧ l = y ++ [10] := by
    intro l hl
    rcases List.mem_append.1 hl with hl | hl
    · exact back_lines hh l hl
    · obtain ⟨y, hy, rfl⟩ := List.mem_map.1 hl
      exact ⟨y, (hp y hy).1, rfl⟩
  have hdg : (T.ctype (headOf hl) false == txt "multipart/digest") = (sub == txt "digest") := by
    rw [hc]
    have : txt "multipart/digest" = txt "multipart/" ++ txt "digest" := by decide
    rw [this, Bool.eq_iff_iff]
    simp
  obtain ⟨p0, ps, rfl⟩ := List.exists_cons_of_ne_nil hne
  rw [readMail, readLines_lfs (fun l hl => (hh l hl).1), readLines_nl, readLines_lfs (fun l hl => (hp l hl).1),
    readLines_parts ho _ (fun p hp l hl => ((hps p hp).2.1 l hl).1), readLines_lf ho2]
  obtain ⟨N, hN⟩ : ∃ N, 2 * (hl.map (· ++ [10]) ++ [10] :: (pl.map (· ++ [10]) ++
      ((p0 :: ps).flatMap (fun p => (txt "--" ++ b ++ [10]) :: partLines p) ++
        (txt "--" ++ b ++ txt "--" ++ [10]) :: readLines r))).length + 2 = N + 1 + 1 := ⟨_, rfl⟩
  rw [hN, readTree_lf T _ _ hh, kind_multi hc, hb, hdg]
  simp only
  rw [List.flatMap_cons, List.cons_append, List.cons_append, ← List.append_assoc, preamble_lines hu hm]
  have hseg : segments b true (partLines p0 ++ ps.flatMap (fun p => (txt "--" ++ b ++ [10]) :: partLines p) ++
      (txt "--" ++ b ++ txt "--" ++ [10]) :: readLines r) =
      (partLines p0 :: ps.map partLines, some (readLines r)) := by
    have := segments_all hm he (readLines r) (ps.map partLines) (partLines p0) (by
      intro y hy
      rw [← List.map_cons] at hy
      obtain ⟨q, hq, rfl⟩ := List.mem_map.1 hy
      refine ⟨by simp [partLines], ?_⟩
      intro l hl
      rcases List.mem_append.1 hl with hl | hl
      · exact unsep_lf hob (fun l hl => (hps q hq).2.1 l (by simp [hl])) l hl
      · rcases List.mem_cons.1 hl with rfl | hl
        · rfl
        · exact unsep_lf hob (fun l hl => (hps q hq).2.1 l (by simp [hl])) l hl)
    rw [List.flatMap_map] at this
    rw [List.append_assoc]
    exact this
  simp only [hseg, Option.map_some, readLines_flatten]
  rw [body_lf hh (fun l hl => (hp l hl).1), preamble_cut hlines]
  congr 1
  · by_cases h0 : backOf hl ++ pl.map (· ++ [10]) = []
    · rw [if_pos h0, if_pos (by rw [h0]; rfl)]
    · rw [if_neg h0, if_neg]
      intro hf
      obtain ⟨l, hl⟩ := List.exists_mem_of_ne_nil _ h0
      obtain ⟨y, -, rfl⟩ := hlines l hl
      have := List.flatten_eq_nil_iff.1 hf _ hl
      simp at this
  · rw [← List.map_cons, List.map_map]
    refine List.map_congr_left ?_
    intro q hq
    obtain ⟨q1, q2, main, sub', q3, q4, q5⟩ := hps q hq
    rw [Function.comp_apply, partLines, readTree_lf T _ _ q1, kind_text q3 q4 q5]
    simp only [trimLast]
    rw [body_cut q1 (fun l hl => (q2 l (by simp [hl])).1)]
    rfl

/-- **C124.** What comes before the first boundary and after the last one is not seen by
the tokenizer. -/
theorem C124_unseen (U : Str) (E : Lib) (dec : Decoder) (order : List Nat) (T : Types)
    (hl pl pl' : List Txt) (ps : List (List Txt × List Txt)) (b r r' sub : Txt)
    (hh : ∀ l ∈ hl, HeadLine l) (hc : T.ctype (headOf hl) false = txt "multipart/" ++ sub)
    (hb : T.boundary (headOf hl) = some b) (hob : OneLine b) (hne : ps ≠ [])
    (hp : ∀ l ∈ pl ++ pl', OneLine l ∧ ¬ Separates b l)
    (hps : ∀ p ∈ ps, (∀ l ∈ p.1, HeadLine l) ∧ (∀ l ∈ p.1 ++ p.2, OneLine l ∧ ¬ Separates b l) ∧
      ∃ main sub', 47 ∉ main ∧ T.ctype (headOf p.1) (sub == txt "digest") = main ++ 47 :: sub' ∧ PrintsAsText main sub') :
    treeTokens U T E dec order (readMail T (lf hl ++ 10 :: (lf pl ++
        (ps.flatMap (fun p => txt "--" ++ b ++ 10 :: partText p) ++ (txt "--" ++ b ++ txt "--" ++ 10 :: r))))) =
      treeTokens U T E dec order (readMail T (lf hl ++ 10 :: (lf pl' ++
        (ps.flatMap (fun p => txt "--" ++ b ++ 10 :: partText p) ++ (txt "--" ++ b ++ txt "--" ++ 10 :: r'))))) := by
  rw [C124_read T hl pl ps b r sub hh hc hb hob hne (fun l h => hp l (by simp [h])) hps,
    C124_read T hl pl' ps b r' sub hh hc hb hob hne (fun l h => hp l (by simp [h])) hps]
  unfold treeTokens
  simp only [treeMime, headersOf]

/-! ### The hypotheses can be met -/

/-- Two parts, a line before them and one after them. -/
def fewParts : List (List Txt × List Txt) :=
  [([txt "X: y"], [txt "a", [], txt "--bb"]), ([txt "From me"], [txt "c"])]

theorem mixed_b : headOf [txt "Content-Type: multipart/mixed; boundary=b"] =
    [(txt "Content-Type", .str (txt "multipart/mixed; boundary=b"))] := by
  set_option maxRecDepth 8000 in decide

theorem head_b : ∀ l ∈ [txt "Content-Type: multipart/mixed; boundary=b"], HeadLine l := by
  intro l hl
  rw [List.mem_singleton] at hl
  subst hl
  exact ⟨by unfold OneLine; decide, .inr (.inl ⟨txt "Content-Type", txt " multipart/mixed; boundary=b",
    ⟨by decide, by decide⟩, by decide⟩)⟩

theorem unsep_b {l : Txt} (h : sepOf (txt "b") l = none) : ¬ Separates (txt "b") l := by
  intro hs
  have := sep_some hs (e := []) (by simp [EndOf])
  rw [List.append_nil] at this
  exact this h

set_option maxRecDepth 8000 in
example : readMail plainTypes
    (txt "Content-Type: multipart/mixed; boundary=b\n\npre\n--b\nX: y\n\na\n\n--bb\n--b\nFrom me\n\nc\n--b--\nend") =
    .cut [(txt "Content-Type", .str (txt "multipart/mixed; boundary=b"))] (some (txt "pre"))
      [.text [(txt "X", .str (txt "y"))] (txt "a\n\n--bb"), .text [] (txt "c")] (some (txt "end")) := by
  have := C124_read plainTypes [txt "Content-Type: multipart/mixed; boundary=b"] [txt "pre"] fewParts (txt "b") (txt "end")
    (txt "mixed") head_b (by rw [mixed_b]; rfl) (by rw [mixed_b]; rfl) (by unfold OneLine; decide) (by decide)
    (by
      intro l hl
      rw [List.mem_singleton] at hl
      subst hl
      exact ⟨by unfold OneLine; decide, unsep_b (by decide)⟩)
    (by
      intro p hp
      have hd : ∀ l ∈ p.1 ++ p.2, sepOf (txt "b") l = none := by revert p; decide
      have ho : ∀ l ∈ p.1 ++ p.2, OneLine l := by revert p; unfold OneLine; decide
      refine ⟨?_, fun l hl => ⟨ho l hl, unsep_b (hd l hl)⟩, txt "text", txt "plain", by decide, ?_,
        by unfold PrintsAsText; decide⟩
      · intro l hl
        refine ⟨ho l (by simp [hl]), ?_⟩
        simp only [fewParts, List.mem_cons, List.not_mem_nil, or_false] at hp
        rcases hp with rfl | rfl
        · rw [List.mem_singleton] at hl
          subst hl
          exact .inr (.inl ⟨txt "X", txt " y", ⟨by decide, by decide⟩, by decide⟩)
        · rw [List.mem_singleton] at hl
          subst hl
          exact .inl (by decide)
      · clear hd ho; revert p; decide)
  rw [mixed_b] at this
  exact this

set_option maxRecDepth 8000 in
/-- What follows the line `--b--` is lost. -/
example : readMail plainTypes (txt "Content-Type: multipart/mixed; boundary=b\n\npre\n--b-- \n--b\n\nhi\n--b--\n") =
    .uncut [(txt "Content-Type", .str (txt "multipart/mixed; boundary=b"))] (txt "pre\n") (some []) := by
  have := C124_ended plainTypes [txt "Content-Type: multipart/mixed; boundary=b"] [txt "pre"] (txt "b") (txt " ")
    (txt "--b\n\nhi\n--b--\n") (txt "mixed") head_b (by rw [mixed_b]; rfl) (by rw [mixed_b]; rfl)
    (by unfold OneLine; decide) (by
      intro l hl
      rw [List.mem_singleton] at hl
      subst hl
      exact ⟨by unfold OneLine; decide, unsep_b (by decide)⟩) (by decide)
  rw [mixed_b] at this
  exact this

set_option maxRecDepth 8000 in
/-- The second of the boundary lines is skipped. -/
example : readMail plainTypes (txt "Content-Type: multipart/mixed; boundary=b\n\n--b\n--b--\n\nhi\n--b--\n") =
    readMail plainTypes (txt "Content-Type: multipart/mixed; boundary=b\n\n--b\n\nhi\n--b--\n") := by
  have := C124_double plainTypes rfl [txt "Content-Type: multipart/mixed; boundary=b"] [] (txt "b") []
    (txt "--b--") (txt "\nhi\n--b--\n") (txt "mixed") head_b (by rw [mixed_b]; rfl) (by rw [mixed_b]; rfl)
    (by unfold OneLine; decide) (by simp) (by simp) ⟨[], by simp, .inr (by decide)⟩
  exact this

set_option maxRecDepth 8000 in
/-- Whatever is put before and after the part does not change the tokens. -/
example (x y : Txt) (hx : OneLine x) (hs : ¬ Separates (txt "a") x) :
    treeTokens asciiStr mixedTypes plainLib plainDecoder [0] (readMail mixedTypes
      (txt "Content-Type: multipart/mixed; boundary=a\n\n" ++ x ++ txt "\n--a\n\nFrom now on\n--a--\n" ++ y)) =
    treeTokens asciiStr mixedTypes plainLib plainDecoder [0] (readMail mixedTypes vowText) := by
  have hd : headOf [txt "Content-Type: multipart/mixed; boundary=a"] = mixedHeaders := by rfl
  have := C124_unseen asciiStr plainLib plainDecoder [0] mixedTypes
    [txt "Content-Type: multipart/mixed; boundary=a"] [x] [] [([], [txt "From now on"])] (txt "a") y [] (txt "mixed")
    (by
      intro l hl
      rw [List.mem_singleton] at hl
      subst hl
      exact ⟨by unfold OneLine; decide, .inr (.inl ⟨txt "Content-Type", txt " multipart/mixed; boundary=a",
        ⟨by decide, by decide⟩, by decide⟩)⟩)
    (by rw [hd, mixed_type]; rfl) (by rw [hd]; decide) (by unfold OneLine; decide) (by simp)
    (by
      intro l hl
      rw [List.append_nil, List.mem_singleton] at hl
      subst hl
      exact ⟨hx, hs⟩)
    (by
      intro p hp
      rw [List.mem_singleton] at hp
      subst hp
      refine ⟨by simp, ?_, txt "text", txt "plain", by decide, by decide, by unfold PrintsAsText; decide⟩
      intro l hl
      rw [List.nil_append, List.mem_singleton] at hl
      subst hl
      refine ⟨by unfold OneLine; decide, fun h => ?_⟩
      have h0 : sepOf (txt "a") (txt "From now on" ++ []) = none := by rfl
      exact sep_some h (by simp [EndOf]) h0)
  have e1 : txt "Content-Type: multipart/mixed; boundary=a\n\n" ++ x ++ txt "\n--a\n\nFrom now on\n--a--\n" ++ y =
      lf [txt "Content-Type: multipart/mixed; boundary=a"] ++ 10 :: (lf [x] ++
        ([([], [txt "From now on"])].flatMap (fun p => txt "--" ++ txt "a" ++ 10 :: partText p) ++
          (txt "--" ++ txt "a" ++ txt "--" ++ 10 :: y))) := by
    simp [txt, lf, partText]
  rw [e1, this]
  rfl

end Sb.Props
