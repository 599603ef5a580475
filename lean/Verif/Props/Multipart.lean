import Verif.Props.Reread
import Verif.Model.Multipart

/-
C122: a message with parts that is written can be read again, with all its parts.
-/

set_option linter.unusedSectionVars false

namespace Sb.Props
open Py Py.Text Sb.Mail

/-! ### What the claims are about -/

/-- `l` is one of the lines of the text. -/
def LineOf (l t : Txt) : Prop :=
  ∃ a r, t = a ++ l ++ r ∧ OneLine l ∧ (a = [] ∨ ∃ a', a = a' ++ [10]) ∧ (r = [] ∨ ∃ r', r = 10 :: r')

/-- The line separates parts: two hyphens and the boundary, perhaps two more hyphens, and
nothing but blanks. -/
def Separates (b l : Txt) : Prop :=
  ∃ w, (∀ c ∈ w, c = 32 ∨ c = 9) ∧ (l = txt "--" ++ b ++ w ∨ l = txt "--" ++ b ++ txt "--" ++ w)

/-- No line of the text separates parts. -/
def Avoids (b t : Txt) : Prop := ∀ l, LineOf l t → ¬ Separates b l

/-- Names and values as they should be: ASCII, all lines but the first begin with a blank. -/
def SoundHeaders (hs : Headers) : Prop :=
  ∀ x ∈ hs, FieldName x.1 ∧ (x.2 = .none ∨ ∃ v, x.2 = .str v ∧ Ascii v ∧ Continued v)

/-- The type and the boundary can be told from the words of the headers. -/
def TypeKept (T : Types) (d : Bool) (hs : Headers) : Prop :=
  ∀ hs', SameHeaders hs hs' → T.ctype hs' d = T.ctype hs d ∧ T.boundary hs' = T.boundary hs

/-- A message whose payload goes with its type, for which no part contains its boundary. -/
inductive SoundTree : Printer → Types → Bool → Bool → Tree → Prop
  | text {P T mg d hs t main sub} : SoundHeaders hs → TypeKept T d hs → 47 ∉ main →
      T.ctype hs d = main ++ 47 :: sub → PrintsAsText main sub → SoundTree P T mg d (.text hs t)
  | inner {P T mg d hs m sub} : SoundHeaders hs → TypeKept T d hs → T.ctype hs d = txt "message/" ++ sub →
      underscores sub ≠ txt "delivery_status" → SoundTree P T mg false m → SoundTree P T mg d (.inner hs m)
  | cut {P : Printer} {T mg d hs pre ms epi sub b} : SoundHeaders hs → TypeKept T d hs →
      T.ctype hs d = txt "multipart/" ++ sub → T.boundary hs = some b → OneLine b → ms ≠ [] →
      (∀ m ∈ ms, SoundTree (P.inside (T.ctype hs d)) T mg (T.ctype hs d == txt "multipart/digest") m) →
      (∀ q, pre = some q → Avoids b (written mg q)) →
      (∀ m ∈ ms, ∀ x s, (P.inside (T.ctype hs d)).docOf T (T.ctype hs d == txt "multipart/digest") m = .ok x →
        flatten mg false x = .ok s → Avoids b s) →
      SoundTree P T mg d (.cut hs pre ms epi)

mutual
/-- The second message has the headers and the parts of the first one; its texts are the
same but for the line ends (and for lines that begin with `From `, if they are quoted). -/
def SameTree (mg : Bool) : Tree → Tree → Prop
  | .text hs t, .text hs' t' => SameHeaders hs hs' ∧ t' = forceCrlf (written mg t)
  | .inner hs m, .inner hs' m' => SameHeaders hs hs' ∧ SameTree mg m m'
  | .cut hs pre ms epi, .cut hs' pre' ms' epi' => SameHeaders hs hs' ∧
      pre' = pre.map (fun p => forceCrlf (written mg p)) ∧ SameTrees mg ms ms' ∧
      epi' = some (forceCrlf (written mg (epi.getD [])))
  | .uncut hs t _, .uncut hs' t' _ => SameHeaders hs hs' ∧ t' = forceCrlf t
  | _, _ => False
/-- The same for lists of parts. -/
def SameTrees (mg : Bool) : List Tree → List Tree → Prop
  | [], [] => True
  | m :: ms, m' :: ms' => SameTree mg m m' ∧ SameTrees mg ms ms'
  | _, _ => False
end

/-! ### Lines -/

def CrFree (t : Txt) : Prop := 13 ∉ t

theorem CrFree.append {a b : Txt} (h1 : CrFree a) (h2 : CrFree b) : CrFree (a ++ b) := by
  intro h
  rcases List.mem_append.1 h with h | h
  · exact h1 h
  · exact h2 h

theorem toLf_free (t : Txt) : CrFree (toLf t) := by
  induction t using crlf_induction with
  | h0 => intro h; cases h
  | h1 r ih => rw [toLf]; intro h; rcases List.mem_cons.1 h with h | h; · cases h
               exact ih h
  | h2 c r h ih =>
    have e : toLf (c :: r) = if c = 13 then 10 :: toLf r else c :: toLf r := by
      rw [toLf]
      intro s h1 h2
      exact h s (by rw [h1, h2])
    rw [e]
    intro hm
    split at hm
    · rcases List.mem_cons.1 hm with h' | h'
      · cases h'
      · exact ih h'
    · rename_i hc
      rcases List.mem_cons.1 hm with h' | h'
      · exact hc h'.symm
      · exact ih h'

theorem written_free (mg : Bool) (t : Txt) : CrFree (written mg t) := toLf_free _

theorem flat_ends (ls : List Txt) : ls.flatMap (· ++ [10]) = [] ∨ ∃ r, ls.flatMap (· ++ [10]) = r ++ [10] := by
  induction ls with
  | nil => left; rfl
  | cons l ls ih =>
    right
    rcases ih with h | ⟨r, h⟩
    · exact ⟨l, by rw [List.flatMap_cons, h]; simp⟩
    · exact ⟨l ++ [10] ++ r, by rw [List.flatMap_cons, h]; simp⟩

theorem line_of {s : Txt} {ls : List Txt} (h : s ++ [10] = ls.flatMap (· ++ [10])) (ho : ∀ l ∈ ls, OneLine l)
    {l : Txt} (hl : l ∈ ls) : LineOf l s := by
  obtain ⟨p, q, rfl⟩ := List.append_of_mem hl
  rw [List.flatMap_append, List.flatMap_cons] at h
  have hp : p.flatMap (· ++ [10]) = [] ∨ ∃ a', p.flatMap (· ++ [10]) = a' ++ [10] := flat_ends p
  rcases flat_ends q with hq | ⟨r, hq⟩
  · rw [hq, List.append_nil, ← List.append_assoc] at h
    exact ⟨_, [], by simpa using List.append_cancel_right h, ho l hl, hp, .inl rfl⟩
  · rw [hq] at h
    have h' : s ++ [10] = (p.flatMap (· ++ [10]) ++ l ++ (10 :: r)) ++ [10] := by rw [h]; simp
    exact ⟨_, _, List.append_cancel_right h', ho l hl, hp, .inr ⟨r, rfl⟩⟩

/-- A text as lines. -/
theorem text_lines {s : Txt} (h : CrFree s) : ∃ ls : List Txt, ls ≠ [] ∧ (∀ l ∈ ls, OneLine l) ∧
    s ++ [10] = ls.flatMap (· ++ [10]) := by
  induction s with
  | nil => exact ⟨[[]], by simp, by simp [OneLine], rfl⟩
  | cons c s ih =>
    obtain ⟨ls, h1, h2, h3⟩ := ih (fun hc => h (by simp [hc]))
    have hc : c ≠ 13 := fun hc => h (by simp [hc])
    by_cases h10 : c = 10
    · subst h10
      refine ⟨[] :: ls, by simp, ?_, by simp [h3]⟩
      intro l hl
      rcases List.mem_cons.1 hl with rfl | hl
      · simp [OneLine]
      · exact h2 l hl
    · cases ls with
      | nil => exact absurd rfl h1
      | cons l ls =>
        have hs : s ++ [10] = l ++ 10 :: ls.flatMap (· ++ [10]) := by simpa using h3
        refine ⟨(c :: l) :: ls, by simp, ?_, by simp [hs]⟩
        intro x hx
        rcases List.mem_cons.1 hx with rfl | hx
        · intro y hy
          rcases List.mem_cons.1 hy with rfl | hy
          · exact ⟨hc, h10⟩
          · exact h2 l (by simp) y hy
        · exact h2 x (by simp [hx])

/-- The lines of a text and a newline, as they are read. -/
def linesOf (s : Txt) : List Txt := readLines (forceCrlf (s ++ [10]))

theorem read_append {s : Txt} (h : CrFree s) (r : Txt) :
    readLines (forceCrlf (s ++ 10 :: r)) = linesOf s ++ readLines (forceCrlf r) := by
  obtain ⟨ls, -, h2, h3⟩ := text_lines h
  have e : s ++ 10 :: r = ls.flatMap (· ++ [10]) ++ r := by rw [← h3]; simp
  have e0 : s ++ [10] = ls.flatMap (· ++ [10]) ++ [] := by rw [← h3]; simp
  rw [linesOf, e, e0, crlf_lines h2, crlf_lines h2, readLines_lines h2, readLines_lines h2]
  simp [forceCrlf, readLines]

theorem crlf_append {s : Txt} (h : CrFree s) (r : Txt) :
    forceCrlf (s ++ 10 :: r) = forceCrlf s ++ 13 :: 10 :: forceCrlf r := by
  induction s with
  | nil => rw [List.nil_append, crlf_cons (by intro s h; cases h)]; simp [forceCrlf]
  | cons c s ih =>
    have hc : c ≠ 13 := fun hc => h (by simp [hc])
    rw [List.cons_append, crlf_cons (by intro s hs; exact hc (List.cons.inj hs).1),
      crlf_cons (by intro s hs; exact hc (List.cons.inj hs).1), ih (fun hc => h (by simp [hc]))]
    split <;> simp

theorem crlf_newline {s : Txt} (h : CrFree s) : forceCrlf (s ++ [10]) = forceCrlf s ++ [13, 10] := by
  rw [crlf_append h]; rfl

theorem cutEnd_crlf (t : Txt) : cutEnd (t ++ [13, 10]) = t := by simp [cutEnd]

theorem linesOf_spec {s : Txt} (h : CrFree s) : linesOf s ≠ [] ∧
    ∀ x ∈ linesOf s, ∃ l, OneLine l ∧ LineOf l s ∧ x = l ++ [13, 10] := by
  obtain ⟨ls, h1, h2, h3⟩ := text_lines h
  have e0 : s ++ [10] = ls.flatMap (· ++ [10]) ++ [] := by rw [← h3]; simp
  have e : linesOf s = ls.map (· ++ [13, 10]) := by
    rw [linesOf, e0, crlf_lines h2, readLines_lines h2]; simp [forceCrlf, readLines]
  rw [e]
  refine ⟨by simpa using h1, ?_⟩
  intro x hx
  obtain ⟨l, hl, rfl⟩ := List.mem_map.1 hx
  exact ⟨l, h2 l hl, line_of h3 h2 hl, rfl⟩

/-- Without the end of the last line it is the text. -/
theorem linesOf_join {s : Txt} (h : CrFree s) :
    (linesOf s).dropLast.flatten ++ cutEnd ((linesOf s).getLastD []) = forceCrlf s := by
  obtain ⟨h1, h2⟩ := linesOf_spec h
  have h3 : (linesOf s).flatten = forceCrlf s ++ [13, 10] := by
    rw [linesOf, readLines_flatten, crlf_newline h]
  obtain ⟨l, -, -, hl⟩ := h2 _ (List.getLast_mem h1)
  have e : (linesOf s).getLastD [] = l ++ [13, 10] := by
    rw [← hl, List.getLastD_eq_getLast?, List.getLast?_eq_some_getLast h1]; rfl
  have e2 : (linesOf s).flatten = (linesOf s).dropLast.flatten ++ (l ++ [13, 10]) := by
    conv_lhs => rw [← List.dropLast_append_getLast h1, hl]
    simp
  rw [e, cutEnd_crlf]
  rw [e2, ← List.append_assoc] at h3
  exact List.append_cancel_right h3

/-! ### Separators -/

theorem sep_none {b l : Txt} (hb : OneLine b) (hl : OneLine l) (h : ¬ Separates b l) :
    sepOf b (l ++ [13, 10]) = none := by
  unfold sepOf
  split
  · rename_i hp
    obtain ⟨r, hr⟩ := List.isPrefixOf_iff_prefix.1 hp
    have hbl : (45 :: 45 :: b) <+: l := by
      have hd : (l ++ [13, 10]).takeWhile (fun c => c != 13 && c != 10) = l := by
        rw [List.takeWhile_append_of_pos (by intro c hc; have := hl c hc; simp [this])]
        simp
      have hd2 : (l ++ [13, 10]).takeWhile (fun c => c != 13 && c != 10) =
          45 :: 45 :: b ++ r.takeWhile (fun c => c != 13 && c != 10) := by
        rw [← hr, List.takeWhile_append_of_pos]
        intro c hc
        rcases List.mem_cons.1 hc with rfl | hc
        · rfl
        · rcases List.mem_cons.1 hc with rfl | hc
          · rfl
          · have := hb c hc; simp [this]
      exact ⟨_, (hd.symm.trans hd2).symm⟩
    obtain ⟨q, rfl⟩ := hbl
    have hq : OneLine q := fun c hc => hl c (by simp [hc])
    have e : (45 :: 45 :: b ++ q ++ [13, 10]).drop (b.length + 2) = q ++ [13, 10] := by
      simp
    simp only [e]
    have key : ∀ w : Txt, OneLine w → ((w ++ [13, 10]).dropWhile isBlank = [] ∨ (w ++ [13, 10]).dropWhile isBlank = [10] ∨
        (w ++ [13, 10]).dropWhile isBlank = [13] ∨ (w ++ [13, 10]).dropWhile isBlank = [13, 10]) →
        ∀ c ∈ w, c = 32 ∨ c = 9 := by
      intro w hw hd
      induction w with
      | nil => intro c hc; cases hc
      | cons c w ih =>
        by_cases hc : isBlank c = true
        · rw [List.cons_append, List.dropWhile_cons_of_pos hc] at hd
          intro x hx
          rcases List.mem_cons.1 hx with rfl | hx
          · simpa [isBlank] using hc
          · exact ih (fun y hy => hw y (by simp [hy])) hd x hx
        · rw [List.cons_append, List.dropWhile_cons_of_neg hc] at hd
          have := hw c (by simp)
          simp [this] at hd
    by_cases hf : (txt "--").isPrefixOf (q ++ [13, 10]) = true
    · rw [if_pos hf, if_neg]
      intro hd
      obtain ⟨w, hw⟩ := List.isPrefixOf_iff_prefix.1 hf
      have : ∃ w', q = 45 :: 45 :: w' := by
        cases q with
        | nil => cases hw
        | cons x q =>
          cases q with
          | nil => cases hw
          | cons y q =>
            have hw' : 45 :: 45 :: w = x :: y :: (q ++ [13, 10]) := hw
            simp only [List.cons.injEq] at hw'
            exact ⟨q, by rw [← hw'.1, ← hw'.2.1]⟩
      obtain ⟨w', rfl⟩ := this
      have hw' := key w' (fun c hc => hq c (by simp [hc])) hd
      exact h ⟨w', hw', .inr (by simp [txt])⟩
    · rw [if_neg hf, if_neg]
      intro hd
      exact h ⟨q, key q hq hd, .inl (by simp [txt])⟩
  · rfl

theorem sep_mid (b : Txt) : sepOf b (45 :: 45 :: b ++ [13, 10]) = some false := by
  unfold sepOf
  rw [if_pos (by rw [List.isPrefixOf_iff_prefix]; exact List.prefix_append _ _)]
  have e : (45 :: 45 :: b ++ [13, 10]).drop (b.length + 2) = [13, 10] := by simp
  simp only [e]
  decide

theorem sep_end (b : Txt) : sepOf b (45 :: 45 :: b ++ 45 :: 45 :: [13, 10]) = some true := by
  unfold sepOf
  rw [if_pos (by rw [List.isPrefixOf_iff_prefix]; exact List.prefix_append _ _)]
  have e : (45 :: 45 :: b ++ 45 :: 45 :: [13, 10]).drop (b.length + 2) = 45 :: 45 :: [13, 10] := by simp
  simp only [e]
  decide

theorem preamble_lines {b : Txt} {p : List Txt} (hp : ∀ l ∈ p, sepOf b l = none) {l : Txt}
    (hl : sepOf b l = some false) (r : List Txt) : preambleOf b (p ++ l :: r) = (p, some r) := by
  induction p with
  | nil => simp [preambleOf, hl]
  | cons x p ih =>
    rw [List.cons_append, preambleOf, hp x (by simp)]
    simp only
    rw [ih (fun y hy => hp y (by simp [hy]))]

def addAll (x : List Txt) (ss : List (List Txt)) : List (List Txt) := x.foldr addFirst ss

theorem addAll_cons (x s : List Txt) (ss : List (List Txt)) : addAll x (s :: ss) = (x ++ s) :: ss := by
  induction x with
  | nil => rfl
  | cons l x ih => rw [addAll, List.foldr_cons, ← addAll, ih]; rfl

theorem segments_lines {b : Txt} {x : List Txt} (hx : ∀ l ∈ x, sepOf b l = none) (r : List Txt) :
    segments b false (x ++ r) = (addAll x (segments b false r).1, (segments b false r).2) := by
  induction x with
  | nil => rfl
  | cons l x ih =>
    rw [List.cons_append, segments, hx l (by simp)]
    simp only
    rw [ih (fun y hy => hx y (by simp [hy]))]
    rfl

theorem segments_fresh {b : Txt} {x : List Txt} (hne : x ≠ []) (hx : ∀ l ∈ x, sepOf b l = none) (r : List Txt) :
    segments b true (x ++ r) = segments b false (x ++ r) := by
  cases x with
  | nil => exact absurd rfl hne
  | cons l x => rw [List.cons_append, segments, segments, hx l (by simp)]

theorem segments_all {b m e : Txt} (hm : sepOf b m = some false) (he : sepOf b e = some true) (rest : List Txt) :
    ∀ (xs : List (List Txt)) (x : List Txt), (∀ y ∈ x :: xs, y ≠ [] ∧ ∀ l ∈ y, sepOf b l = none) →
    segments b true (x ++ (xs.flatMap (fun y => m :: y) ++ e :: rest)) = (x :: xs, some rest) := by
  intro xs
  induction xs with
  | nil =>
    intro x hx
    rw [segments_fresh (hx x (by simp)).1 (hx x (by simp)).2, segments_lines (hx x (by simp)).2]
    have h : segments b false ([].flatMap (fun y => m :: y) ++ e :: rest) = ([[]], some rest) := by
      simp [segments, he]
    rw [h]
    simp only
    rw [addAll_cons, List.append_nil]
  | cons y xs ih =>
    intro x hx
    rw [segments_fresh (hx x (by simp)).1 (hx x (by simp)).2, segments_lines (hx x (by simp)).2]
    have h : segments b false ((y :: xs).flatMap (fun y => m :: y) ++ e :: rest) = ([] :: y :: xs, some rest) := by
      rw [List.flatMap_cons, List.append_assoc, List.cons_append, segments, hm]
      simp only [Bool.false_eq_true, if_false]
      rw [ih y (fun z hz => hx z (by simp only [List.mem_cons] at hz ⊢; right; exact hz))]
    rw [h]
    simp only
    rw [addAll_cons, List.append_nil]

/-! ### Reading what was written -/

/-- Headers that are written and read. -/
theorem headers_read (P : Printer) {hs : Headers} (h : SoundHeaders hs) :
    ∃ ts hs' hl, P.foldAll hs = .ok ts ∧ SameHeaders hs hs' ∧ CrFree ts.flatten ∧
      (∀ r, readLines (forceCrlf (ts.flatten ++ 10 :: r)) = hl ++ [13, 10] :: readLines (forceCrlf r)) ∧
      (∀ x, takeHeaders (hl ++ [13, 10] :: x) = (hl, x)) ∧ parseFields true [] hl = ⟨none, hs', []⟩ := by
  obtain ⟨ts, ht⟩ := foldAll_works P hs (fun x hx => fold_works P (h x hx).1 (h x hx).2)
  have hh : ∀ x ∈ hs, FieldName x.1 ∧ Fits P x.2 := by
    intro x hx
    refine ⟨(h x hx).1, ?_⟩
    rcases (h x hx).2 with h | ⟨v, h1, h2, h3⟩
    · exact .inl h
    · exact .inr ⟨v, h1, h2, .inl h3⟩
  obtain ⟨fs, f1, f2, f3⟩ := foldAll_fields P hs ts hh ht
  have hl : ∀ l ∈ fs.flatMap Field.lines, OneLine l := by
    intro l hl
    obtain ⟨f, hf, hl⟩ := List.mem_flatMap.1 hl
    exact (f1 f hf).oneLine l hl
  refine ⟨ts, _, (fs.flatMap Field.lines).map (· ++ [13, 10]), ht, fields_same f1 f3, ?_, ?_, ?_, ?_⟩
  · rw [f2]
    intro hc
    obtain ⟨l, h1, h2⟩ := List.mem_flatMap.1 hc
    rcases List.mem_append.1 h2 with h2 | h2
    · exact (hl l h1 13 h2).1 rfl
    · simp at h2
  · intro r
    rw [f2, crlf_lines hl, readLines_lines hl, ← List.nil_append (10 :: r),
      crlf_oneLine (by intro c hc; cases hc), List.nil_append, readLines]
  · exact fun x => takeHeaders_lines f1 x
  · rw [parseFields_fields f1 _ _ (fun _ => rfl)]
    simp

/-- Reading lines that begin with such headers. -/
theorem readTree_headers (T : Types) (n : Nat) (d : Bool) {hl : List Txt} {hs' : Headers} {x : List Txt}
    (h1 : ∀ x, takeHeaders (hl ++ [13, 10] :: x) = (hl, x)) (h2 : parseFields true [] hl = ⟨none, hs', []⟩) :
    readTree T (n + 1) d (hl ++ [13, 10] :: x) =
      match T.kind hs' d with
      | .text => .text hs' x.flatten
      | .message => .inner hs' (readTree T n false x)
      | .multipart none _ => .uncut hs' x.flatten none
      | .multipart (some b) dg =>
        match preambleOf b x with
        | (p, none) => .uncut hs' p.flatten (some [])
        | (p, some r) =>
          .cut hs' (if p = [] then none else some (p.dropLast.flatten ++ cutEnd (p.getLastD [])))
            ((segments b true r).1.map fun s => trimLast (readTree T n dg s))
            ((segments b true r).2.map List.flatten) := by
  rw [readTree]
  simp only [h1, h2, List.nil_append]
  cases T.kind hs' d with
  | text => rfl
  | message => rfl
  | multipart b dg => cases b <;> rfl

/-- The newline before the next boundary, if one follows. -/
def atEnd (e : Txt) (t : Tree) : Tree := if e = [] then t else trimLast t

/-- What is to be shown of a message: it can be written, and lines `e` after it do not
matter. -/
def Rereads (P : Printer) (T : Types) (mg d : Bool) (m : Tree) (x : Doc) (s : Txt) : Prop :=
  P.docOf T d m = .ok x ∧ (∀ w, flatten mg w x = .ok s) ∧ CrFree s ∧
    ∀ e, e = [] ∨ e = [10] → ∀ n, (readLines (forceCrlf (s ++ e))).length < n →
      SameTree mg m (atEnd e (readTree T n d (readLines (forceCrlf (s ++ e)))))

theorem crlf_end {s e : Txt} (h : CrFree s) (he : e = [] ∨ e = [10]) :
    forceCrlf (s ++ e) = forceCrlf s ++ (if e = [] then [] else [13, 10]) := by
  rcases he with rfl | rfl
  · simp
  · rw [crlf_newline h]; rfl

theorem all_reread {P : Printer} {T : Types} {mg d : Bool} {ms : List Tree}
    (h : ∀ m ∈ ms, ∃ x s, Rereads P T mg d m x s) :
    ∃ xs ss, P.docsOf T d ms = .ok xs ∧ (∀ w, flattenAll mg w xs = .ok ss) ∧
      List.Forall₂ (fun m s => ∃ x, Rereads P T mg d m x s) ms ss := by
  induction ms with
  | nil => exact ⟨[], [], by rw [Printer.docsOf], fun w => by rw [flattenAll], .nil⟩
  | cons m ms ih =>
    obtain ⟨x, s, hx⟩ := h m (by simp)
    obtain ⟨xs, ss, h1, h2, h3⟩ := ih (fun y hy => h y (by simp [hy]))
    exact ⟨x :: xs, s :: ss, by rw [Printer.docsOf, hx.1, h1], fun w => by rw [flattenAll, hx.2.1 w, h2 w],
      .cons ⟨x, hx⟩ h3⟩

theorem linesOf_oneLine {l : Txt} (h : OneLine l) : linesOf l = [l ++ [13, 10]] := by
  rw [linesOf, crlf_oneLine h, readLines_oneLine h]; simp [forceCrlf, readLines]

theorem OneLine.free {l : Txt} (h : OneLine l) : CrFree l := fun hc => (h 13 hc).1 rfl

/-- The lines of a multipart body. -/
theorem body_lines {b : Txt} (hb : OneLine b) (r : Txt) : ∀ (ss : List Txt) (s : Txt), (∀ x ∈ s :: ss, CrFree x) →
    readLines (forceCrlf (s ++ (ss.flatMap (fun u => 10 :: 45 :: 45 :: b ++ 10 :: u) ++
      10 :: 45 :: 45 :: b ++ 45 :: 45 :: 10 :: r))) =
    linesOf s ++ ((ss.map linesOf).flatMap (fun y => (45 :: 45 :: b ++ [13, 10]) :: y) ++
      (45 :: 45 :: b ++ 45 :: 45 :: [13, 10]) :: readLines (forceCrlf r)) := by
  have h1 : OneLine (45 :: 45 :: b) := by
    intro c hc
    simp only [List.mem_cons] at hc
    rcases hc with rfl | rfl | hc
    · decide
    · decide
    · exact hb c hc
  have h2 : OneLine (45 :: 45 :: b ++ [45, 45]) := by
    intro c hc
    rcases List.mem_append.1 hc with hc | hc
    · exact h1 c hc
    · simp only [List.mem_cons, List.not_mem_nil, or_false, or_self] at hc; subst hc; decide
  intro ss
  induction ss with
  | nil =>
    intro s hs
    have e : s ++ ([].flatMap (fun u : Txt => 10 :: 45 :: 45 :: b ++ 10 :: u) ++ 10 :: 45 :: 45 :: b ++ 45 :: 45 :: 10 :: r) =
        s ++ 10 :: ((45 :: 45 :: b ++ [45, 45]) ++ 10 :: r) := by simp
    rw [e, read_append (hs s (by simp)), read_append h2.free, linesOf_oneLine h2]
    simp
  | cons u ss ih =>
    intro s hs
    have e : s ++ ((u :: ss).flatMap (fun u : Txt => 10 :: 45 :: 45 :: b ++ 10 :: u) ++ 10 :: 45 :: 45 :: b ++ 45 :: 45 :: 10 :: r) =
        s ++ 10 :: ((45 :: 45 :: b) ++ 10 :: (u ++ (ss.flatMap (fun u : Txt => 10 :: 45 :: 45 :: b ++ 10 :: u) ++
          10 :: 45 :: 45 :: b ++ 45 :: 45 :: 10 :: r))) := by simp
    rw [e, read_append (hs s (by simp)), read_append h1.free, linesOf_oneLine h1,
      ih u (fun x hx => hs x (by simp only [List.mem_cons] at hx ⊢; right; exact hx))]
    simp

theorem tree_lists {P : Printer} {T : Types} {mg d : Bool} {ms : List Tree} {ss : List Txt} {n : Nat}
    (h : List.Forall₂ (fun m s => ∃ x, Rereads P T mg d m x s) ms ss)
    (hn : ∀ s ∈ ss, (linesOf s).length < n) :
    SameTrees mg ms ((ss.map linesOf).map fun l => trimLast (readTree T n d l)) := by
  induction h with
  | nil => simp [SameTrees]
  | @cons m s ms ss hx _ ih =>
    obtain ⟨x, -, -, -, hx⟩ := hx
    rw [List.map_cons, List.map_cons, SameTrees]
    refine ⟨?_, ih (fun s hs => hn s (by simp [hs]))⟩
    have := hx [10] (.inr rfl) n (hn s (by simp))
    simpa [atEnd, linesOf] using this

theorem kind_multi {T : Types} {hs : Headers} {d : Bool} {sub : Txt} (h : T.ctype hs d = txt "multipart/" ++ sub) :
    T.kind hs d = .multipart (T.boundary hs) (T.ctype hs d == txt "multipart/digest") := by
  have e : (txt "multipart/" ++ sub).takeWhile (· != 47) = txt "multipart" := by
    simp [txt]
  unfold Types.kind
  simp only [h, e]
  rw [if_neg (by decide), if_pos trivial]

theorem kind_message {T : Types} {hs : Headers} {d : Bool} {sub : Txt} (h : T.ctype hs d = txt "message/" ++ sub) :
    T.kind hs d = .message := by
  have e : (txt "message/" ++ sub).takeWhile (· != 47) = txt "message" := by
    simp [txt]
  unfold Types.kind
  simp only [h, e]
  rw [if_pos trivial]

theorem kind_text {T : Types} {hs : Headers} {d : Bool} {main sub : Txt} (hm : 47 ∉ main)
    (h : T.ctype hs d = main ++ 47 :: sub) (hp : PrintsAsText main sub) : T.kind hs d = .text := by
  have e := (main_cut (main := main) (sub := sub) hm).1
  have h1 : main ≠ txt "message" := by
    rintro rfl
    exact hp.1 (by decide)
  have h2 : main ≠ txt "multipart" := by
    rintro rfl
    exact hp.1 (by decide)
  unfold Types.kind
  simp only [h, e]
  rw [if_neg h1, if_neg h2]

theorem kind_kept {T : Types} {hs hs' : Headers} {d : Bool} (h : TypeKept T d hs) (hs2 : SameHeaders hs hs') :
    T.kind hs' d = T.kind hs d := by
  obtain ⟨h1, h2⟩ := h hs' hs2
  unfold Types.kind
  rw [h1, h2]

/-- The text of a multipart body and what follows. -/
theorem assemble_eq (mg : Bool) (pre epi : Option Txt) (b s0 : Txt) (ss : List Txt) (e : Txt) :
    assemble mg pre epi b (s0 :: ss) ++ e =
      (match pre with | some q => written mg q ++ [10] | none => []) ++
      ((45 :: 45 :: b) ++ 10 :: (s0 ++ (ss.flatMap (fun u => 10 :: 45 :: 45 :: b ++ 10 :: u) ++
        10 :: 45 :: 45 :: b ++ 45 :: 45 :: 10 :: (written mg (epi.getD []) ++ e)))) := by
  have h0 : written mg [] = [] := by cases mg <;> rfl
  cases epi <;> cases pre <;> simp [assemble, h0]

/-- How it is read. -/
theorem assemble_read {b : Txt} (hb : OneLine b) (mg : Bool) (pre epi : Option Txt) (s0 : Txt) (ss : List Txt) (e : Txt)
    (hs : ∀ s ∈ s0 :: ss, CrFree s ∧ Avoids b s) (hpre : ∀ q, pre = some q → Avoids b (written mg q))
    {x : List Txt} (hx : x = readLines (forceCrlf (assemble mg pre epi b (s0 :: ss) ++ e))) :
    ∃ p r, preambleOf b x = (p, some r) ∧
      (if p = [] then none else some (p.dropLast.flatten ++ cutEnd (p.getLastD []))) =
        pre.map (fun p => forceCrlf (written mg p)) ∧
      segments b true r = ((s0 :: ss).map linesOf, some (readLines (forceCrlf (written mg (epi.getD []) ++ e)))) ∧
      ∀ s ∈ s0 :: ss, (linesOf s).length < x.length := by
  have h1 : OneLine (45 :: 45 :: b) := by
    intro c hc
    simp only [List.mem_cons] at hc
    rcases hc with rfl | rfl | hc
    · decide
    · decide
    · exact hb c hc
  have hsep : ∀ s, CrFree s → Avoids b s → ∀ l ∈ linesOf s, sepOf b l = none := by
    intro s hf ha l hl
    obtain ⟨y, h2, h3, rfl⟩ := (linesOf_spec hf).2 l hl
    exact sep_none hb h2 (ha y h3)
  have hbody : ∀ r, readLines (forceCrlf ((45 :: 45 :: b) ++ 10 :: (s0 ++ (ss.flatMap (fun u => 10 :: 45 :: 45 :: b ++ 10 :: u) ++
        10 :: 45 :: 45 :: b ++ 45 :: 45 :: 10 :: r)))) = (45 :: 45 :: b ++ [13, 10]) ::
        (linesOf s0 ++ ((ss.map linesOf).flatMap (fun y => (45 :: 45 :: b ++ [13, 10]) :: y) ++
      (45 :: 45 :: b ++ 45 :: 45 :: [13, 10]) :: readLines (forceCrlf r))) := by
    intro r
    rw [read_append h1.free, linesOf_oneLine h1, body_lines hb r ss s0 (fun x hx => (hs x hx).1)]
    rfl
  have hseg := segments_all (sep_mid b) (sep_end b) (readLines (forceCrlf (written mg (epi.getD []) ++ e)))
    (ss.map linesOf) (linesOf s0) (by
      intro y hy
      rw [← List.map_cons (f := linesOf)] at hy
      obtain ⟨s, h2, rfl⟩ := List.mem_map.1 hy
      exact ⟨(linesOf_spec (hs s h2).1).1, hsep s (hs s h2).1 (hs s h2).2⟩)
  have hlen : ∀ s ∈ s0 :: ss, (linesOf s).length <
      ((45 :: 45 :: b ++ [13, 10]) :: (linesOf s0 ++ ((ss.map linesOf).flatMap (fun y => (45 :: 45 :: b ++ [13, 10]) :: y) ++
      (45 :: 45 :: b ++ 45 :: 45 :: [13, 10]) :: readLines (forceCrlf (written mg (epi.getD []) ++ e))))).length := by
    intro s h
    rcases List.mem_cons.1 h with rfl | h
    · simp only [List.length_cons, List.length_append]; omega
    · have h2 : (linesOf s).length ≤ ((ss.map linesOf).flatMap (fun y => (45 :: 45 :: b ++ [13, 10]) :: y)).length := by
        obtain ⟨p, q, rfl⟩ := List.append_of_mem h
        simp only [List.map_append, List.map_cons, List.flatMap_append, List.flatMap_cons, List.length_append,
          List.length_cons]
        omega
      simp only [List.length_cons, List.length_append]; omega
  rw [assemble_eq] at hx
  cases pre with
  | none =>
    simp only [List.nil_append] at hx
    rw [hbody] at hx
    refine ⟨[], _, by rw [hx]; exact preamble_lines (p := []) (by simp) (sep_mid b) _, by simp, hseg, ?_⟩
    rw [hx]; exact hlen
  | some q =>
    simp only [List.append_assoc] at hx
    rw [List.singleton_append, read_append (written_free mg q)] at hx
    simp only [List.append_assoc] at hbody
    rw [hbody] at hx
    have h3 := linesOf_spec (written_free mg q)
    refine ⟨linesOf (written mg q), _, by rw [hx]; exact preamble_lines (hsep _ (written_free mg q) (hpre q rfl)) (sep_mid b) _,
      ?_, hseg, ?_⟩
    · rw [if_neg h3.1, linesOf_join (written_free mg q)]; rfl
    · intro s h
      have := hlen s h
      rw [hx, List.length_append]
      omega

theorem sound_reread {P : Printer} {T : Types} {mg d : Bool} {m : Tree} (h : SoundTree P T mg d m) :
    ∃ x s, Rereads P T mg d m x s := by
  induction h with
  | @text P T mg d hs t main sub hh hk hm hc hp =>
    obtain ⟨ts, hs', hl, h1, h2, h3, h4, h5, h6⟩ := headers_read P hh
    refine ⟨_, ts.flatten ++ 10 :: written mg t, by rw [Printer.docOf, h1], ?_, ?_, ?_⟩
    · intro w
      rw [flatten, bodyOf.eq_def]
      simp only [hc, handlerOf_text hm hp, ite_self]
    · exact h3.append (by intro hc; rcases List.mem_cons.1 hc with hc | hc; · cases hc
                          exact written_free _ _ hc)
    · intro e he n hn
      cases n with
      | zero => omega
      | succ n =>
        rw [List.append_assoc, List.cons_append, h4, readTree_headers T n d h5 h6, kind_kept hk h2,
          kind_text hm hc hp]
        simp only [readLines_flatten]
        rw [crlf_end (written_free _ _) he]
        rcases he with rfl | rfl
        · simp only [atEnd, if_true, SameTree, List.append_nil]
          exact ⟨h2, trivial⟩
        · simp only [atEnd, reduceCtorEq, if_false, trimLast, cutEnd_crlf, SameTree]
          exact ⟨h2, trivial⟩
  | @inner P T mg d hs m sub hh hk hc hp _ ih =>
    obtain ⟨ts, hs', hl, h1, h2, h3, h4, h5, h6⟩ := headers_read P hh
    obtain ⟨x, s, i1, i2, i3, i4⟩ := ih
    refine ⟨.doc (T.ctype hs d) ts ts [] none none [] (.parts [x]), ts.flatten ++ 10 :: s,
      by rw [Printer.docOf, i1]; simp only [h1], ?_, ?_, ?_⟩
    · intro w
      rw [flatten, bodyOf.eq_def]
      simp only [hc, handlerOf_message, if_neg hp, i2 w, ite_self]
    · exact h3.append (by intro hc; rcases List.mem_cons.1 hc with hc | hc; · cases hc
                          exact i3 hc)
    · intro e he n hn
      cases n with
      | zero => omega
      | succ n =>
        rw [List.append_assoc, List.cons_append, h4] at hn ⊢
        rw [readTree_headers T n d h5 h6, kind_kept hk h2, kind_message hc]
        simp only [List.length_append, List.length_cons] at hn
        have := i4 e he n (by omega)
        simp only
        by_cases he0 : e = []
        · rw [atEnd, if_pos he0] at this ⊢
          rw [SameTree]; exact ⟨h2, this⟩
        · rw [atEnd, if_neg he0] at this ⊢
          rw [trimLast, SameTree]; exact ⟨h2, this⟩
  | @cut P T mg d hs pre ms epi sub b hh hk hc hb hob hne _ hpre hav ih =>
    obtain ⟨ts, hs', hl, h1, h2, h3, h4, h5, h6⟩ := headers_read P hh
    obtain ⟨xs, ss, j1, j2, j3⟩ := all_reread ih
    have hfree : ∀ s ∈ ss, CrFree s ∧ Avoids b s := by
      intro s hs
      obtain ⟨i, hi, rfl⟩ := List.mem_iff_getElem.1 hs
      have hlen := j3.length_eq
      obtain ⟨x, k1, k2, k3, -⟩ := (List.forall₂_iff_get.1 j3).2 i (by omega) hi
      exact ⟨k3, hav _ (List.get_mem _ _) x _ k1 (k2 false)⟩
    cases ss with
    | nil => cases j3; exact absurd rfl hne
    | cons s0 ss =>
    refine ⟨.doc (T.ctype hs d) ts ts [] pre epi ((T.boundary hs).getD []) (.parts xs),
      ts.flatten ++ 10 :: assemble mg pre epi b (s0 :: ss), by rw [Printer.docOf, j1]; simp only [h1], ?_, ?_, ?_⟩
    · intro w
      rw [flatten, bodyOf.eq_def]
      simp only [hc, handlerOf_multi, hb, Option.getD_some, j2, ite_self]
    · have hb2 : CrFree (45 :: 45 :: b) := by
        intro hc
        simp only [List.mem_cons] at hc
        rcases hc with hc | hc | hc
        · cases hc
        · cases hc
        · exact hob.free hc
      have hcons : ∀ {t : Txt}, CrFree t → CrFree (10 :: t) := by
        intro t ht hc
        rcases List.mem_cons.1 hc with hc | hc
        · cases hc
        · exact ht hc
      refine h3.append (hcons ?_)
      have := assemble_eq mg pre epi b s0 ss []
      rw [List.append_nil] at this
      rw [this]
      refine CrFree.append ?_ (hb2.append (hcons ((hfree s0 (by simp)).1.append (CrFree.append ?_ ?_))))
      · cases pre with
        | none => intro hc; cases hc
        | some q => exact (written_free mg q).append (by unfold CrFree; decide)
      · refine CrFree.append ?_ (hcons hb2)
        intro hc
        obtain ⟨u, hu, hc⟩ := List.mem_flatMap.1 hc
        exact (hcons (hb2.append (hcons (hfree u (by simp [hu])).1))) hc
      · have : CrFree ([45, 45, 10] ++ (written mg (epi.getD []) ++ [])) :=
          CrFree.append (by unfold CrFree; decide) ((written_free mg _).append (by intro hc; cases hc))
        exact this
    · intro e he n hn
      cases n with
      | zero => omega
      | succ n =>
        rw [List.append_assoc, List.cons_append, h4] at hn ⊢
        obtain ⟨p, r, q1, q2, q3, q4⟩ := assemble_read hob mg pre epi s0 ss e hfree hpre rfl
        rw [readTree_headers T n d h5 h6, kind_kept hk h2, kind_multi hc, hb]
        simp only [q1, q2, q3]
        simp only [List.length_append, List.length_cons] at hn
        have hsame := tree_lists (n := n) j3 (fun s hs => by have := q4 s hs; omega)
        simp only [Option.map_some, readLines_flatten]
        rw [crlf_end (written_free _ _) he]
        rcases he with rfl | rfl
        · simp only [atEnd, if_true, List.append_nil]
          rw [SameTree]
          exact ⟨h2, rfl, hsame, rfl⟩
        · simp only [atEnd, reduceCtorEq, if_false, trimLast, trimEpilogue, List.append_eq_nil_iff, and_false,
            cutEnd_crlf]
          rw [SameTree]
          exact ⟨h2, rfl, hsame, rfl⟩

/-! ### C122 -/

/-- A message whose parts do not contain its boundary can be written, and whoever reads
the text finds the same parts with the same headers and texts. -/
theorem C122_parts_partial (P : Printer) (T : Types) (mg : Bool) (m : Tree) (h : SoundTree P T mg false m) :
    ∃ s, P.writeTree T mg m = .ok s ∧ SameTree mg m (readMail T s) := by
  obtain ⟨x, s, h1, h2, h3, h4⟩ := sound_reread h
  refine ⟨forceCrlf s, ?_, ?_⟩
  · rw [Printer.writeTree, h1]
    simp only
    obtain ⟨ct, f, w, u, p, e, b, pl⟩ := x
    rw [asString.eq_def]
    simp only [generate, h2]
    rfl
  · have := h4 [] (.inl rfl) (2 * (readLines (forceCrlf s)).length + 2) (by rw [List.append_nil]; omega)
    rw [List.append_nil] at this
    exact this

/-- get_content_type() and get_boundary() for headers `Content-Type: type/subtype` and
`Content-Type: type/subtype; boundary=b`. -/
def plainTypes : Types where
  ctype hs d :=
    match hs.find? (fun x => x.1 == txt "Content-Type") with
    | some (_, .str v) => v.takeWhile (· != 59)
    | _ => if d then txt "message/rfc822" else txt "text/plain"
  boundary hs :=
    match hs.find? (fun x => x.1 == txt "Content-Type") with
    | some (_, .str v) => if v.contains 61 then some ((v.dropWhile (· != 61)).drop 1) else none
    | _ => none

/-- The claim: a message that was read can be written and read again, and is the same but
for the line ends. -/
def C122Claim : Prop := ∀ (P : Printer) (t : Txt), Ascii t →
  ∃ s, P.writeTree plainTypes false (readMail plainTypes t) = .ok s ∧
    SameTree false (readMail plainTypes t) (readMail plainTypes s)

def lostText : Txt := txt "Content-Type: multipart/mixed; boundary=a\n\n--a\nContent-Type: multipart/mixed; boundary=b\n\nhello\n--a--\n"

def lostTree (t : Txt) : Tree :=
  .cut [(txt "Content-Type", .str (txt "multipart/mixed; boundary=a"))] none
    [.uncut [(txt "Content-Type", .str (txt "multipart/mixed; boundary=b"))] t none] (some [])

set_option maxRecDepth 8000 in
theorem lost_read : readMail plainTypes lostText = lostTree (txt "hello\n") := by
  rfl

def laxPrinter : Printer := ⟨false, fun _ _ => .error .exception, false⟩

def lostAgain : Txt := txt "Content-Type: multipart/mixed; boundary=a\r\n\r\n--a\r\nContent-Type: multipart/mixed; boundary=b\r\n\r\nhello\r\n\r\n--a--\r\n"

set_option maxRecDepth 8000 in
theorem lost_again : readMail plainTypes lostAgain = lostTree (txt "hello\r\n\r\n") := by
  rfl

set_option maxRecDepth 8000 in
theorem lost_written : laxPrinter.writeTree plainTypes false (lostTree (txt "hello\n")) = .ok lostAgain := by
  have e1 : laxPrinter.foldAll [(txt "Content-Type", .str (txt "multipart/mixed; boundary=a"))] =
    .ok [txt "Content-Type: multipart/mixed; boundary=a\n"] := by rfl
  have e2 : laxPrinter.foldAll [(txt "Content-Type", .str (txt "multipart/mixed; boundary=b"))] =
    .ok [txt "Content-Type: multipart/mixed; boundary=b\n"] := by rfl
  have c1 : plainTypes.ctype [(txt "Content-Type", .str (txt "multipart/mixed; boundary=a"))] false =
    txt "multipart/mixed" := by rfl
  have c2 : ∀ d, plainTypes.ctype [(txt "Content-Type", .str (txt "multipart/mixed; boundary=b"))] d =
    txt "multipart/mixed" := by intro d; rfl
  have b1 : plainTypes.boundary [(txt "Content-Type", .str (txt "multipart/mixed; boundary=a"))] =
    some (txt "a") := by rfl
  have hh : handlerOf (txt "multipart/mixed") = .multipart false := by decide
  have hin : laxPrinter.inside (txt "multipart/mixed") = laxPrinter := by rw [Printer.inside, hh]
  rw [Printer.writeTree, lostTree, Printer.docOf, c1, hin, Printer.docsOf, Printer.docsOf, Printer.docOf, e1, e2]
  simp only [c2, b1]
  rw [asString.eq_def]
  simp only [generate, flatten, bodyOf.eq_def, hh, flattenAll]
  rfl

/-- It fails for a multipart part in which the boundary is not found: its text has a line
more each time. -/
theorem C122_claim_false : ¬ C122Claim := by
  intro h
  obtain ⟨s, h1, h2⟩ := h laxPrinter lostText (by unfold Ascii; decide)
  rw [lost_read, lost_written] at h1
  cases h1
  rw [lost_read, lost_again, lostTree, lostTree, SameTree, SameTrees, SameTree] at h2
  exact absurd h2.2.2.1.1.2 (by decide)

/-! ### The hypotheses can be met -/

theorem short_same {hs hs' : Headers} (h : ∀ x ∈ hs, ∃ v, x.2 = .str v ∧ Short x.1 v) (h2 : SameHeaders hs hs') :
    hs' = hs := by
  induction h2 with
  | nil => rfl
  | @cons x y hs hs' hx _ ih =>
    obtain ⟨v, h3, h4⟩ := h x (by simp)
    have h5 := hx.2.2 v h3 h4
    rw [ih (fun z hz => h z (by simp [hz]))]
    obtain ⟨n, w⟩ := x
    obtain ⟨n', w'⟩ := y
    simp only at h3 h5 hx
    rw [h3, h5, hx.1]

theorem short_kept (T : Types) (d : Bool) {hs : Headers} (h : ∀ x ∈ hs, ∃ v, x.2 = .str v ∧ Short x.1 v) :
    TypeKept T d hs := by
  intro hs' h2
  rw [short_same h h2]
  exact ⟨rfl, rfl⟩

/-- No two hyphens in a row. -/
def noHyphens : Txt → Bool
  | 45 :: 45 :: _ => false
  | _ :: r => noHyphens r
  | [] => true

theorem noHyphens_append {a r : Txt} : noHyphens (a ++ 45 :: 45 :: r) = false := by
  induction a with
  | nil => rw [List.nil_append, noHyphens]
  | cons c a ih =>
    rw [List.cons_append, noHyphens.eq_def]
    split
    · rfl
    · rename_i h; cases h; exact ih
    · rename_i h; cases h

theorem hyphens_avoid {b s : Txt} (h : noHyphens s = true) : Avoids b s := by
  rintro l ⟨a, r, rfl, -⟩ ⟨w, -, h1 | h1⟩
  · have : a ++ l ++ r = a ++ 45 :: 45 :: (b ++ w ++ r) := by rw [h1]; simp [txt]
    rw [this, noHyphens_append] at h; cases h
  · have : a ++ l ++ r = a ++ 45 :: 45 :: (b ++ txt "--" ++ w ++ r) := by rw [h1]; simp [txt]
    rw [this, noHyphens_append] at h; cases h

/-- A multipart message with a text and a message in it. -/
def twoParts : Tree :=
  .cut [(txt "Content-Type", .str (txt "multipart/mixed; boundary=a"))] (some (txt "pre"))
    [.text [] (txt "hi\nthere"),
     .inner [(txt "Content-Type", .str (txt "message/rfc822"))] (.text [(txt "X", .str (txt "y"))] (txt "ho\n"))] none

example : ∃ s, laxPrinter.writeTree plainTypes true twoParts = .ok s ∧
    SameTree true twoParts (readMail plainTypes s) := by
  have hd : ∀ n v : Txt, (∀ c ∈ n, 33 ≤ c ∧ c ≤ 126 ∧ c ≠ 58) → n ≠ [] → (∀ c ∈ v, 32 ≤ c ∧ c < 127) →
      (v.head? ≠ some 32) → n.length + 2 + v.length ≤ 78 →
      SoundHeaders [(n, .str v)] ∧ ∀ T d, TypeKept T d [(n, .str v)] := by
    intro n v h1 h2 h3 h4 h5
    refine ⟨?_, fun T d => short_kept T d ?_⟩
    · intro x hx
      rw [List.mem_singleton] at hx
      subst hx
      refine ⟨⟨h2, h1⟩, .inr ⟨v, rfl, fun c hc => by have := h3 c hc; omega, ?_⟩⟩
      intro a c d b e hc
      have := h3 c (by rw [e]; simp)
      unfold Ends at hc
      omega
    · intro x hx
      rw [List.mem_singleton] at hx
      subst hx
      refine ⟨v, rfl, ?_, ?_, h5⟩
      · intro c hc he
        have := h3 c hc
        unfold Ends at he
        omega
      · rintro c r rfl
        have := h3 c (by simp)
        simp at h4
        omega
  obtain ⟨m1, m2⟩ := hd (txt "Content-Type") (txt "multipart/mixed; boundary=a") (by decide) (by decide) (by decide)
    (by decide) (by decide)
  obtain ⟨r1, r2⟩ := hd (txt "Content-Type") (txt "message/rfc822") (by decide) (by decide) (by decide)
    (by decide) (by decide)
  obtain ⟨x1, x2⟩ := hd (txt "X") (txt "y") (by decide) (by decide) (by decide) (by decide) (by decide)
  have e0 : laxPrinter.foldAll [] = .ok [] := rfl
  have e1 : laxPrinter.foldAll [(txt "Content-Type", .str (txt "message/rfc822"))] =
    .ok [txt "Content-Type: message/rfc822\n"] := by rfl
  have e2 : laxPrinter.foldAll [(txt "X", .str (txt "y"))] = .ok [txt "X: y\n"] := by rfl
  have ht : handlerOf (txt "text/plain") = .text := by decide
  have hm : handlerOf (txt "message/rfc822") = .message := by decide
  have hh : handlerOf (txt "multipart/mixed") = .multipart false := by decide
  have hin : laxPrinter.inside (plainTypes.ctype [(txt "Content-Type", .str (txt "multipart/mixed; boundary=a"))] false) =
      laxPrinter := by
    show laxPrinter.inside (txt "multipart/mixed") = laxPrinter
    rw [Printer.inside, hh]
  refine C122_parts_partial _ _ _ _ (.cut (sub := txt "mixed") (b := txt "a") m1 (m2 _ _) rfl rfl
    (by unfold OneLine; decide) (by simp) ?_ ?_ ?_)
  · intro m hmem
    rcases List.mem_cons.1 hmem with rfl | hmem
    · exact .text (main := txt "text") (sub := txt "plain") (by intro x hx; cases hx)
        (short_kept _ _ (by intro x hx; cases hx)) (by decide) rfl (by unfold PrintsAsText; decide)
    · rw [List.mem_singleton] at hmem
      subst hmem
      exact .inner (sub := txt "rfc822") r1 (r2 _ _) rfl (by decide)
        (.text (main := txt "text") (sub := txt "plain") x1 (x2 _ _) (by decide) rfl (by unfold PrintsAsText; decide))
  · rintro q ⟨⟩
    exact hyphens_avoid (by decide)
  · rw [hin]
    intro m hmem x s hx hs
    rcases List.mem_cons.1 hmem with rfl | hmem
    · rw [Printer.docOf, e0] at hx
      cases hx
      have h0 : flatten true false (.doc (txt "text/plain") [] [] [] none none []
          (.str (txt "hi\nthere"))) = .ok (txt "\nhi\nthere") := by
        rw [flatten, bodyOf.eq_def]; simp only [ht]; rfl
      cases hs.symm.trans h0
      exact hyphens_avoid (by decide)
    · rw [List.mem_singleton] at hmem
      subst hmem
      rw [Printer.docOf, Printer.docOf, e1, e2] at hx
      cases hx
      have h0 : flatten true false (.doc (txt "message/rfc822") [txt "Content-Type: message/rfc822\n"]
          [txt "Content-Type: message/rfc822\n"] [] none none []
          (.parts [.doc (txt "text/plain") [txt "X: y\n"] [txt "X: y\n"] [] none none []
            (.str (txt "ho\n"))])) =
          .ok (txt "Content-Type: message/rfc822\n\nX: y\n\nho\n") := by
        rw [flatten, bodyOf.eq_def]; simp only [hm]; rw [flatten, bodyOf.eq_def]; simp only [ht]; rfl
      cases hs.symm.trans h0
      exact hyphens_avoid (by decide)

end Sb.Props
