import Verif.Props.TreeSame

/-
C125 for messages of any depth: a message in the form in which messages are written is
written line by line as it was read.
-/

set_option linter.unusedSectionVars false

namespace Sb.Props
open Py Py.Text Sb.Mail Sb.Tokenize Sb.Strip

/-- A further line of a header: it begins with a blank and does not end with one. -/
def NeatMore (k : Nat) (l : Txt) : Prop :=
  (∃ c r, l = c :: r ∧ (c = 32 ∨ c = 9)) ∧ (∃ r c, l = r ++ [c] ∧ 33 ≤ c) ∧ Ascii l ∧ (∀ c ∈ l, ¬ Ends c) ∧ l.length ≤ k

/-- The header lines are in the form they are written in, with at most k characters: the
name, a colon and a space, the value, and perhaps further lines. -/
inductive NeatHead (k : Nat) : List Txt → Prop
  | nil : NeatHead k []
  | field {l : Txt} {ms hl : List Txt} : NeatLine k l → (∀ m ∈ ms, NeatMore k m) →
      (ms ≠ [] → ∀ r, l = r ++ [32] → ∃ n, FieldName n ∧ l = n ++ txt ": ") →
      NeatHead k hl → NeatHead k (l :: (ms ++ hl))

/-- The length of header lines in the message, or in parts of multipart/signed. -/
def widthOf (wide : Bool) : Nat := if wide then 1000000 else 78

/-- The lines of a message in the form in which messages are written: texts, messages
in messages, and multipart messages, to any depth.  `wide`: it is in a part of
multipart/signed; `d`: its default type is message/rfc822. -/
inductive NeatMail (T : Types) : (wide d : Bool) → List Txt → Prop
  | text {w d : Bool} {hl bl : List Txt} {main sub : Txt} :
      NeatHead (widthOf w) hl → bl ≠ [] → (∀ l ∈ bl, OneLine l) →
      47 ∉ main → T.ctype (headOf hl) d = main ++ 47 :: sub → PrintsAsText main sub →
      NeatMail T w d (hl ++ [] :: bl)
  | inner {w d : Bool} {hl ls : List Txt} {sub : Txt} :
      NeatHead (widthOf w) hl → T.ctype (headOf hl) d = txt "message/" ++ sub →
      underscores sub ≠ txt "delivery_status" → NeatMail T w false ls →
      NeatMail T w d (hl ++ [] :: ls)
  | multi {w d : Bool} {hl pl el : List Txt} {ps : List (List Txt)} {sub b : Txt} :
      NeatHead (widthOf w) hl → T.ctype (headOf hl) d = txt "multipart/" ++ sub →
      T.boundary (headOf hl) = some b → OneLine b → ps ≠ [] → el ≠ [] → (∀ l ∈ pl ++ el, OneLine l) →
      (∀ l ∈ pl ++ ps.flatten, ¬ Separates b l) →
      (∀ p ∈ ps, NeatMail T (w || sub == txt "signed") (sub == txt "digest") p) →
      NeatMail T w d (hl ++ [] :: (pl ++ (ps.flatMap (fun p => (txt "--" ++ b) :: p) ++
        (txt "--" ++ b ++ txt "--") :: el)))

/-! ### Headers -/

theorem NeatMore.line {k : Nat} {l : Txt} (h : NeatMore k l) : OneLine l := by
  intro c hc
  have := h.2.2.2.1 c hc
  unfold Ends at this
  omega

theorem NeatMore.starts {k : Nat} {l : Txt} (h : NeatMore k l) : startsBlank l = true := by
  obtain ⟨⟨c, r, rfl, hc⟩, -⟩ := h
  rcases hc with rfl | rfl <;> rfl

theorem neat_head {k : Nat} {hl : List Txt} (h : NeatHead k hl) : ∀ l ∈ hl, HeadLine l := by
  induction h with
  | nil => intro l hl; cases hl
  | field h1 h2 _ _ ih =>
    intro l hl
    rcases List.mem_cons.1 hl with rfl | hl
    · exact h1.head
    rcases List.mem_append.1 hl with hl | hl
    · refine ⟨(h2 l hl).line, .inr (.inr ?_)⟩
      obtain ⟨⟨c, r, e, hc⟩, -⟩ := h2 l hl
      exact ⟨c, r, hc, e⟩
    · exact ih l hl

theorem ascii_not_break {v : Txt} (ha : Ascii v) (h1 : ∀ c ∈ v, ¬ Ends c) : ∀ c ∈ v, isLineBreak c = false := by
  intro c hc
  have h4 := ha c hc
  have h5 := h1 c hc
  unfold Ends at h5
  cases hx : isLineBreak c with
  | false => rfl
  | true =>
    simp only [isLineBreak, Bool.or_eq_true, Bool.and_eq_true, decide_eq_true_eq, beq_iff_eq] at hx
    omega

theorem splitLines_lf {v : Txt} (h : ∀ c ∈ v, isLineBreak c = false) (r : Txt) :
    splitLines (v ++ 10 :: r) = v :: splitLines r := by
  induction v with
  | nil => rw [List.nil_append, splitLines_cons (by intro s hs; cases hs)]; rfl
  | cons c v ih =>
    have hc := h c (by simp)
    rw [List.cons_append, splitLines_cons (by intro s hs; have := (List.cons.inj hs).1; subst this; cases hc), hc,
      ih (fun x hx => h x (by simp [hx]))]
    rfl

theorem splitLines_field (ms : List Txt) : ∀ (v : Txt), (∀ c ∈ v, isLineBreak c = false) →
    (∀ m ∈ ms, m ≠ [] ∧ ∀ c ∈ m, isLineBreak c = false) → ms ≠ [] →
    splitLines (v ++ ms.flatMap (10 :: ·)) = v :: ms := by
  induction ms with
  | nil => intro v _ _ h; exact absurd rfl h
  | cons m ms ih =>
    intro v hv hm _
    rw [List.flatMap_cons, List.cons_append, splitLines_lf hv]
    by_cases h0 : ms = []
    · subst h0
      rw [List.flatMap_nil, List.append_nil, splitLines_one (hm m (by simp)).2, if_neg (hm m (by simp)).1]
    · rw [ih m (hm m (by simp)).2 (fun x hx => hm x (by simp [hx])) h0]

theorem chunks_last {l : Txt} (h : ∀ r, l ≠ r ++ [32]) : (chunks l).getLast? ≠ some ([32], []) := by
  intro hl
  obtain ⟨a, ha⟩ := List.getLast?_eq_some_iff.1 hl
  have := (chunks_spec l).1
  rw [ha, lineText_append] at this
  exact h (lineText a) (by rw [← this]; simp [lineText])

theorem feed_short {k : Nat} {s : Folding} (hs : s.cur = []) {l : Txt} (h : s.init + l.length ≤ k) :
    s.feed k l = { s with cur := chunks l } := by
  rw [Folding.feed, foldl_append_short]
  · rw [hs]; rfl
  · rw [hs, List.nil_append, (chunks_spec l).1]; exact h

theorem newline_kept {s : Folding} {l : Txt} (hc : s.cur = chunks l) (h1 : ∀ r, l ≠ r ++ [32])
    (h2 : 0 < s.init ∨ ∃ r c, l = r ++ [c] ∧ 33 ≤ c ∧ c < 128) : s.newline = ⟨s.lines ++ [l], [], 0⟩ := by
  rw [Folding.newline, hc, if_neg (chunks_last h1)]
  simp only [(chunks_spec l).1]
  rw [if_neg, if_neg]
  · rintro ⟨h3, h4, -⟩
    rcases h2 with h2 | ⟨r, c, rfl, h2, h5⟩
    · omega
    · rw [List.all_eq_true] at h4
      have := h4 c (by simp)
      simp only [isSpace, Bool.or_eq_true, Bool.and_eq_true, decide_eq_true_eq, beq_iff_eq] at this
      omega
  · rcases h2 with h2 | ⟨r, c, rfl, -⟩
    · omega
    · simp

theorem NeatMore.ends {k : Nat} {l : Txt} (h : NeatMore k l) : (∀ r, l ≠ r ++ [32]) ∧ ∃ r c, l = r ++ [c] ∧ 33 ≤ c ∧ c < 128 := by
  obtain ⟨-, ⟨r, c, rfl, hc⟩, ha, -⟩ := h
  refine ⟨?_, r, c, rfl, hc, ha c (by simp)⟩
  intro r' hr
  have := (List.append_inj' hr rfl).2
  simp only [List.cons.injEq, and_true] at this
  omega

theorem folding_lines {k : Nat} (ms : List Txt) : ∀ (s : Folding) (l : Txt), s.cur = chunks l → (∀ r, l ≠ r ++ [32]) →
    (0 < s.init ∨ ∃ r c, l = r ++ [c] ∧ 33 ≤ c ∧ c < 128) → (∀ m ∈ ms, NeatMore k m) →
    (ms.foldl (fun s l => s.newline.feed k l) s).newline = ⟨s.lines ++ l :: ms, [], 0⟩ := by
  induction ms with
  | nil => intro s l h1 h2 h3 _; rw [List.foldl_nil, newline_kept h1 h2 h3]
  | cons m ms ih =>
    intro s l h1 h2 h3 h4
    have hm := h4 m (by simp)
    rw [List.foldl_cons, newline_kept h1 h2 h3, feed_short rfl (by simpa using hm.2.2.2.2),
      ih _ m rfl hm.ends.1 (.inr hm.ends.2) (fun x hx => h4 x (by simp [hx]))]
    simp

theorem encodedLines_more {k : Nat} {n v : Txt} {ms : List Txt} (ha : Ascii v) (h1 : ∀ c ∈ v, ¬ Ends c)
    (h2 : n.length + 2 + v.length ≤ k) (h3 : ∀ m ∈ ms, NeatMore k m) (h4 : ms ≠ [] → ∀ r, v ≠ r ++ [32]) :
    encodedLines k n (v ++ ms.flatMap (10 :: ·)) = v :: ms := by
  by_cases h0 : ms = []
  · subst h0
    rw [List.flatMap_nil, List.append_nil, encodedLines_one ha h1 h2]
  · have hs := splitLines_field ms v (ascii_not_break ha h1) (by
      intro m hm
      obtain ⟨⟨c, r, e, -⟩, -, hma, hme, -⟩ := h3 m hm
      exact ⟨by rw [e]; simp, ascii_not_break hma hme⟩) h0
    unfold encodedLines
    rw [hs]
    simp only [List.headD_cons, List.tail_cons, List.length_cons]
    rw [if_pos (by have := List.length_pos_iff.2 h0; omega), feed_short rfl h2,
      folding_lines ms _ v rfl (h4 h0) (.inl (by simp only; omega)) h3]
    simp [Folding.newline, lineText]

theorem sourceParse_more {n v : Txt} {k : Nat} {ms : List Txt} (hn : FieldName n) (hv : ∀ c ∈ v, ¬ Ends c)
    (hb : ∀ c r, v = c :: r → c ≠ 32 ∧ c ≠ 9) (hm : ∀ m ∈ ms, NeatMore k m) :
    sourceParse ((n ++ txt ": " ++ v ++ [10]) :: ms.map (· ++ [10])) = (n, .str (v ++ ms.flatMap (10 :: ·))) := by
  have e : n ++ txt ": " ++ v ++ [10] = n ++ 58 :: (32 :: v ++ [10]) := by simp [txt]
  have h58 : ∀ c ∈ n, (c != 58) = true := by
    intro c hc
    have := hn.2 c hc
    simp [this]
  have hd : (32 :: v ++ [10]).dropWhile Mail.isBlank = v ++ [10] := by
    rw [List.cons_append, List.dropWhile_cons_of_pos (by rfl)]
    cases v with
    | nil => rfl
    | cons c r =>
      have := hb c r rfl
      rw [List.cons_append, List.dropWhile_cons_of_neg (by simp [Mail.isBlank, this])]
  have ht : ∀ (ms : List Txt) (x : Txt), x ++ [10] ++ (ms.map (· ++ [10])).flatten = (x ++ ms.flatMap (10 :: ·)) ++ [10] := by
    intro ms
    induction ms with
    | nil => intro x; simp
    | cons m ms ih =>
      intro x
      have := ih m
      simp only [List.map_cons, List.flatten_cons, List.flatMap_cons]
      rw [this]
      simp
  have hend : ∀ c r, (v ++ ms.flatMap (10 :: ·)).reverse = c :: r → c ≠ 13 ∧ c ≠ 10 := by
    intro c r hr
    rcases List.eq_nil_or_concat ms with rfl | ⟨a, m, rfl⟩
    · rw [List.flatMap_nil, List.append_nil] at hr
      have hc := hv c (List.mem_reverse.1 (by rw [hr]; simp))
      unfold Ends at hc
      omega
    · obtain ⟨-, r', c', hc', h33, -⟩ := (hm m (by simp)).ends
      have : (v ++ (a.concat m).flatMap (10 :: ·)).reverse = c' :: (v ++ (a.flatMap (10 :: ·) ++ 10 :: r')).reverse := by
        simp [hc']
      rw [this] at hr
      have := (List.cons.inj hr).1
      omega
  have hr : ((v ++ ms.flatMap (10 :: ·)) ++ [10]).reverse.dropWhile (fun c => c == 13 || c == 10) =
      (v ++ ms.flatMap (10 :: ·)).reverse := by
    rw [List.reverse_append]
    show ([10] ++ (v ++ ms.flatMap (10 :: ·)).reverse).dropWhile _ = _
    rw [List.dropWhile_append_of_pos (by simp)]
    cases hv' : (v ++ ms.flatMap (10 :: ·)).reverse with
    | nil => rfl
    | cons c r =>
      have hc := hend c r hv'
      rw [List.dropWhile_cons_of_neg (by simp [hc])]
  unfold sourceParse
  simp only [e, List.headD_cons, List.tail_cons]
  rw [List.dropWhile_append_of_pos h58, List.dropWhile_cons_of_neg (by decide), List.drop_one, List.tail_cons,
    hd, ht, hr, List.reverse_reverse, List.takeWhile_append_of_pos h58, List.takeWhile_cons_of_neg (by decide)]
  simp

theorem ascii_field {v : Txt} {k : Nat} {ms : List Txt} (ha : Ascii v) (hm : ∀ m ∈ ms, NeatMore k m) :
    Ascii (v ++ ms.flatMap (10 :: ·)) := by
  intro c hc
  rcases List.mem_append.1 hc with hc | hc
  · exact ha c hc
  · obtain ⟨m, hm', hc⟩ := List.mem_flatMap.1 hc
    rcases List.mem_cons.1 hc with rfl | hc
    · decide
    · exact (hm m hm').2.2.1 c hc

theorem fold_more (P : Printer) {n v : Txt} {k : Nat} {ms : List Txt} (hk : k ≤ P.max) (hn : FieldName n)
    (ha : Ascii v) (h1 : ∀ c ∈ v, ¬ Ends c) (h2 : n.length + 2 + v.length ≤ k) (h3 : ∀ m ∈ ms, NeatMore k m)
    (h4 : ms ≠ [] → ∀ r, v ≠ r ++ [32]) :
    P.fold n (.str (v ++ ms.flatMap (10 :: ·))) = .ok (lf ((n ++ txt ": " ++ v) :: ms)) := by
  have h3' : ∀ m ∈ ms, NeatMore P.max m := fun m hm => by
    obtain ⟨a, b, c, d, e⟩ := h3 m hm
    exact ⟨a, b, c, d, by omega⟩
  have hv : OneLine v := by
    intro c hc
    have := h1 c hc
    unfold Ends at this
    omega
  have hne : ∀ l ∈ ms, OneLine l ∧ l ≠ [] := by
    intro l hl
    refine ⟨(h3 l hl).line, ?_⟩
    obtain ⟨⟨c, r, e, -⟩, -⟩ := h3 l hl
    rw [e]; simp
  have := (checked_iff P (f := ⟨n, v, ms⟩) hn hv hne (lf ((n ++ txt ": " ++ v) :: ms))).2
    ⟨fun _ l hl => (h3 l hl).starts, by simp [Field.lines, lf, txt]⟩
  simp only [Printer.fold]
  rw [if_neg (by rw [ascii_any (ascii_field ha h3)]; simp), encodedLines_more ha h1 (by omega) h3' h4, joinLf_flat]
  show (if embedded (v ++ ms.flatMap (10 :: ·)) = true then Except.error Err.exception
    else P.checked n (v ++ ms.flatMap (10 :: ·))) = _
  rw [if_neg]
  · exact this
  · rw [embedded_oneLine hv, embedded_lines (fun l hl => ⟨(h3 l hl).line, (h3 l hl).starts⟩)]
    simp

theorem neat_read {k : Nat} {hl : List Txt} (h : NeatHead k hl) : ∃ hs : Headers,
    (∀ f cur, parseFields f cur (hl.map (· ++ [10])) = ⟨none, (if cur = [] then [] else [sourceParse cur]) ++ hs, []⟩) ∧
    ∀ P : Printer, k ≤ P.max → ∃ f, P.foldAll hs = .ok f ∧ f.flatten = lf hl := by
  induction h with
  | nil => exact ⟨[], fun f cur => by simp [parseFields], fun P _ => ⟨[], rfl, rfl⟩⟩
  | @field l ms hl h1 h2 h3 _ ih =>
    obtain ⟨hs, i1, i2⟩ := ih
    obtain ⟨n, v, hn, rfl, ha, hv, hb, hlen⟩ := h1
    have hlen' : n.length + 2 + v.length ≤ k := by
      have : (txt ": ").length = 2 := rfl
      simp only [List.length_append, this] at hlen
      omega
    have h32 : ms ≠ [] → ∀ r, v ≠ r ++ [32] := by
      rintro hms r rfl
      obtain ⟨n', hn', e⟩ := h3 hms (n ++ txt ": " ++ r) (by simp)
      have e1 : n ++ 58 :: (32 :: r ++ [32]) = n' ++ 58 :: [32] := by
        have : n ++ txt ": " ++ (r ++ [32]) = n ++ 58 :: (32 :: r ++ [32]) := by simp [txt]
        rw [← this, e]; simp [txt]
      have e2 := name_drop hn (32 :: r ++ [32])
      rw [e1, name_drop hn'] at e2
      simp at e2
    refine ⟨(n, .str (v ++ ms.flatMap (10 :: ·))) :: hs, ?_, ?_⟩
    · intro f cur
      have e : n ++ txt ": " ++ v ++ [10] = n ++ 58 :: (32 :: v ++ [10]) := by simp [txt]
      rw [List.map_cons, List.map_append, e, parseFields, (name_starts hn _).1, name_not_from hn]
      simp only [Bool.false_eq_true, if_false, if_neg (name_starts hn _).2]
      obtain ⟨b, hb'⟩ := parseFields_more (cur := [n ++ 58 :: (32 :: v ++ [10])]) (by simp)
        (ts := ms.map (· ++ [10])) (by
          intro l hl
          obtain ⟨l', hl', rfl⟩ := List.mem_map.1 hl
          exact startsBlank_append (h2 l' hl').starts) (hl.map (· ++ [10])) false
      rw [hb', i1]
      simp only [List.append_eq_nil_iff, List.cons_ne_nil, false_and, if_false]
      have := sourceParse_more hn hv hb h2
      rw [e] at this
      rw [List.singleton_append]
      rw [List.singleton_append, this]
    · intro P hk
      obtain ⟨f, j1, j2⟩ := i2 P hk
      refine ⟨lf ((n ++ txt ": " ++ v) :: ms) :: f, ?_, ?_⟩
      · rw [Printer.foldAll, fold_more P hk hn ha hv hlen' h2 h32, j1]
      · rw [List.flatten_cons, j2]
        simp [lf]

theorem neat_back {k : Nat} {hl : List Txt} (h : NeatHead k hl) : backOf hl = [] := by
  obtain ⟨hs, h1, -⟩ := neat_read h
  rw [backOf, h1]

theorem neat_fold (P : Printer) {k : Nat} (hk : k ≤ P.max) {hl : List Txt} (h : NeatHead k hl) :
    ∃ f, P.foldAll (headOf hl) = .ok f ∧ f.flatten = lf hl := by
  obtain ⟨hs, h1, h2⟩ := neat_read h
  rw [headOf_eq (neat_head h), h1]
  simpa using h2 P hk

theorem quoted_same (mg : Bool) {l : Txt} (h : ¬ txt "From " <+: l) : quoted mg l = l := by
  unfold quoted quoteFrom
  rw [if_neg h, ite_self]

theorem neat_from {k : Nat} {hl : List Txt} (h : NeatHead k hl) : ∀ l ∈ hl, ¬ txt "From " <+: l := by
  induction h with
  | nil => intro l hl; cases hl
  | field h1 h2 _ _ ih =>
    intro l hl
    rcases List.mem_cons.1 hl with rfl | hl
    · obtain ⟨n, v, hn, rfl, -⟩ := h1
      intro hp
      have := name_not_from hn (32 :: v)
      rw [← List.isPrefixOf_iff_prefix] at hp
      have e : n ++ txt ": " ++ v = n ++ 58 :: (32 :: v) := by simp [txt]
      rw [e, this] at hp
      cases hp
    rcases List.mem_append.1 hl with hl | hl
    · obtain ⟨⟨c, r, rfl, hc⟩, -⟩ := h2 l hl
      rintro ⟨t, ht⟩
      have := (List.cons.inj ht).1
      rcases hc with rfl | rfl <;> exact absurd this (by decide)
    · exact ih l hl

theorem neat_quoted (mg : Bool) {k : Nat} {hl : List Txt} (h : NeatHead k hl) : hl.map (quoted mg) = hl := by
  conv_rhs => rw [← List.map_id hl]
  exact List.map_congr_left (fun l hl => quoted_same mg (neat_from h l hl))

/-! ### Reading and writing -/

theorem lf_append (a b : List Txt) : lf (a ++ b) = lf a ++ lf b := by simp [lf]

theorem lf_cons (l : Txt) (ls : List Txt) : lf (l :: ls) = l ++ 10 :: lf ls := by simp [lf]

theorem quoted_nil (mg : Bool) : quoted mg [] = [] := by cases mg <;> rfl

theorem quoted_hyphens (mg : Bool) (x : Txt) : quoted mg (txt "--" ++ x) = txt "--" ++ x := by
  unfold quoted quoteFrom
  split
  · rw [if_neg]
    rintro ⟨t, ht⟩
    have := congrArg List.head? ht
    simp [txt] at this
  · rfl

theorem written_whole (mg : Bool) {ls : List Txt} (h : ∀ l ∈ ls, OneLine l) :
    written mg (lf ls) = lf (ls.map (quoted mg)) := by
  have := written_lf mg (e := []) h (by simp [OneLine])
  rwa [quoted_nil, List.append_nil, List.append_nil] at this

theorem cutEnd_whole {ls : List Txt} (h : ∀ l ∈ ls, OneLine l) : cutEnd (lf ls) = (lf ls).dropLast := by
  rw [← lf_flatten]
  exact cutEnd_lf (by
    intro l hl
    obtain ⟨y, hy, rfl⟩ := List.mem_map.1 hl
    exact ⟨y, h y hy, rfl⟩)

mutual
/-- No message/delivery-status in the message. -/
def NoStatus (T : Types) (d : Bool) : Tree → Prop
  | .text _ _ => True
  | .inner hs m => (∀ sub, T.ctype hs d = txt "message/" ++ sub → underscores sub ≠ txt "delivery_status") ∧
      NoStatus T false m
  | .uncut _ _ _ => True
  | .cut hs _ ms _ => NoStatuses T (T.ctype hs d == txt "multipart/digest") ms
/-- The same for lists of parts. -/
def NoStatuses (T : Types) (d : Bool) : List Tree → Prop
  | [] => True
  | m :: ms => NoStatus T d m ∧ NoStatuses T d ms
end

theorem noStatus_trim (T : Types) : ∀ (m : Tree) (d : Bool), NoStatus T d m → NoStatus T d (trimLast m)
  | .text _ _, d, _ => by rw [trimLast, NoStatus]; trivial
  | .inner hs m, d, h => by
    rw [NoStatus] at h
    rw [trimLast, NoStatus]
    exact ⟨h.1, noStatus_trim T m false h.2⟩
  | .uncut _ _ _, d, _ => by rw [trimLast, NoStatus]; trivial
  | .cut hs p ms e, d, h => by
    rw [NoStatus] at h
    rw [trimLast, NoStatus]
    exact h

/-- What reading and writing have to do with the lines of a message. -/
structure Passes (T : Types) (mg wide d : Bool) (ls : List Txt) : Prop where
  some : ls ≠ []
  lines : ∀ l ∈ ls, OneLine l
  trees : ∃ (t0 t1 : Tree) (N : Nat), (∀ n, N ≤ n → readTree T n d (ls.map (· ++ [10])) = t1) ∧ trimLast t1 = t0 ∧
    NoStatus T d t1 ∧ ∀ P : Printer, widthOf wide ≤ P.max →
      (∃ x, P.docOf T d t1 = .ok x ∧ ∀ w, flatten mg w x = .ok (lf (ls.map (quoted mg)))) ∧
      (∃ x, P.docOf T d t0 = .ok x ∧ ∃ s, (∀ w, flatten mg w x = .ok s) ∧ s ++ [10] = lf (ls.map (quoted mg)))

theorem passes_text {T : Types} (mg : Bool) {w d : Bool} {hl bl : List Txt} {main sub : Txt}
    (hh : NeatHead (widthOf w) hl) (hne : bl ≠ []) (hl1 : ∀ l ∈ bl, OneLine l) (hm : 47 ∉ main)
    (hc : T.ctype (headOf hl) d = main ++ 47 :: sub) (hp : PrintsAsText main sub) : Passes T mg w d (hl ++ [] :: bl) := by
  refine ⟨by simp, ?_, .text (headOf hl) (lf bl).dropLast, .text (headOf hl) (lf bl), 1, ?_, ?_, (by rw [NoStatus]; trivial), ?_⟩
  · intro l hl
    rcases List.mem_append.1 hl with hl | hl
    · exact (neat_head hh l hl).1
    · rcases List.mem_cons.1 hl with rfl | hl
      · simp [OneLine]
      · exact hl1 l hl
  · intro n hn
    obtain ⟨n, rfl⟩ : ∃ n', n = n' + 1 := ⟨n - 1, by omega⟩
    rw [List.map_append, List.map_cons, List.nil_append, readTree_lf T _ _ (neat_head hh), kind_text hm hc hp]
    simp only
    rw [neat_back hh, List.nil_append, lf_flatten]
  · rw [trimLast, cutEnd_whole hl1]
  · intro P hk
    obtain ⟨f, hf, hff⟩ := neat_fold P hk hh
    have hx : ∀ t w', flatten mg w' (.doc (T.ctype (headOf hl) d) f f [] none none [] (.str t)) =
        .ok (lf hl ++ 10 :: written mg t) := by
      intro t w'
      rw [flatten, bodyOf.eq_def]
      simp only [hc, handlerOf_text hm hp, ite_self, hff]
    have he : lf ((hl ++ [] :: bl).map (quoted mg)) = lf hl ++ 10 :: lf (bl.map (quoted mg)) := by
      rw [List.map_append, neat_quoted mg hh, lf_append, List.map_cons, quoted_nil, lf_cons, List.nil_append]
    refine ⟨⟨_, by rw [Printer.docOf, hf], fun w' => ?_⟩, ⟨_, by rw [Printer.docOf, hf], _, hx _, ?_⟩⟩
    · rw [hx, written_whole mg hl1, he]
    · rw [he, ← written_chopped mg hl1 hne]
      simp

theorem passes_inner {T : Types} (mg : Bool) {w d : Bool} {hl ls : List Txt} {sub : Txt}
    (hh : NeatHead (widthOf w) hl) (hc : T.ctype (headOf hl) d = txt "message/" ++ sub)
    (hp : underscores sub ≠ txt "delivery_status") (ih : Passes T mg w false ls) :
    Passes T mg w d (hl ++ [] :: ls) := by
  obtain ⟨-, i1, t0, t1, N, i2, i3, i5, i4⟩ := ih
  refine ⟨by simp, ?_, .inner (headOf hl) t0, .inner (headOf hl) t1, N + 1, ?_, ?_, ?_, ?_⟩
  · intro l hl
    rcases List.mem_append.1 hl with hl | hl
    · exact (neat_head hh l hl).1
    · rcases List.mem_cons.1 hl with rfl | hl
      · simp [OneLine]
      · exact i1 l hl
  · intro n hn
    obtain ⟨n, rfl⟩ : ∃ n', n = n' + 1 := ⟨n - 1, by omega⟩
    rw [List.map_append, List.map_cons, List.nil_append, readTree_lf T _ _ (neat_head hh), kind_message hc]
    simp only
    rw [neat_back hh, List.nil_append, i2 n (by omega)]
  · rw [trimLast, i3]
  · rw [NoStatus]
    refine ⟨?_, i5⟩
    intro x hx
    rw [hc] at hx
    rw [← List.append_cancel_left hx]
    exact hp
  · intro P hk
    obtain ⟨f, hf, hff⟩ := neat_fold P hk hh
    obtain ⟨⟨x1, j1, j2⟩, x0, j3, s, j4, j5⟩ := i4 P hk
    have hx : ∀ x t, (∀ w, flatten mg w x = .ok t) → ∀ w', flatten mg w'
        (.doc (T.ctype (headOf hl) d) f f [] none none [] (.parts [x])) = .ok (lf hl ++ 10 :: t) := by
      intro x t ht w'
      rw [flatten, bodyOf.eq_def]
      simp only [hc, handlerOf_message, if_neg hp, ht, ite_self, hff]
    have he : lf ((hl ++ [] :: ls).map (quoted mg)) = lf hl ++ 10 :: lf (ls.map (quoted mg)) := by
      rw [List.map_append, neat_quoted mg hh, lf_append, List.map_cons, quoted_nil, lf_cons, List.nil_append]
    refine ⟨⟨_, by rw [Printer.docOf, j1, hf], fun w' => ?_⟩, ⟨_, by rw [Printer.docOf, j3, hf], _, hx _ _ j4, ?_⟩⟩
    · rw [hx _ _ j2, he]
    · rw [he, ← j5]
      simp

/-- The parts together. -/
theorem passes_all {T : Types} (mg wide d : Bool) : ∀ ps : List (List Txt), (∀ p ∈ ps, Passes T mg wide d p) →
    ∃ (ts : List Tree) (N : Nat), (∀ n, N ≤ n → ps.map (fun p => trimLast (readTree T n d (p.map (· ++ [10])))) = ts) ∧
      NoStatuses T d ts ∧ ∀ P : Printer, widthOf wide ≤ P.max → ∃ xs ss, P.docsOf T d ts = .ok xs ∧
        (∀ w, flattenAll mg w xs = .ok ss) ∧ ss.map (· ++ [10]) = ps.map (fun p => lf (p.map (quoted mg))) := by
  intro ps
  induction ps with
  | nil =>
    intro _
    refine ⟨[], 0, fun n _ => rfl, (by rw [NoStatuses]; trivial), fun P _ => ⟨[], [], rfl, fun w => ?_, rfl⟩⟩
    rw [flattenAll]
  | cons p ps ih =>
    intro h
    obtain ⟨ts, N, i1, i3, i2⟩ := ih (fun q hq => h q (by simp [hq]))
    obtain ⟨-, -, t0, t1, M, j1, j2, j4, j3⟩ := h p (by simp)
    refine ⟨t0 :: ts, max N M, ?_, ?_, ?_⟩
    · intro n hn
      rw [List.map_cons, i1 n (by omega), j1 n (by omega), j2]
    · rw [NoStatuses, ← j2]
      exact ⟨noStatus_trim T t1 d j4, i3⟩
    · intro P hk
      obtain ⟨xs, ss, k1, k2, k3⟩ := i2 P hk
      obtain ⟨-, x, l1, s, l2, l3⟩ := j3 P hk
      refine ⟨x :: xs, s :: ss, ?_, ?_, ?_⟩
      · rw [Printer.docsOf, l1, k1]
      · intro w
        rw [flattenAll, l2, k2]
      · rw [List.map_cons, List.map_cons, k3, l3]

theorem width_inside (P : Printer) {w : Bool} (sub : Txt) (hk : widthOf w ≤ P.max) :
    widthOf (w || sub == txt "signed") ≤ (P.inside (txt "multipart/" ++ sub)).max := by
  unfold Printer.inside
  rw [handlerOf_multi]
  by_cases h : sub = txt "signed"
  · have : decide (underscores sub = txt "signed") = true := by simp [underscores_signed, h]
    rw [this]
    unfold widthOf
    simp [Printer.max, h]
  · have : decide (underscores sub = txt "signed") = false := by simp [underscores_signed, h]
    have h2 : (sub == txt "signed") = false := by simpa using h
    rw [this, h2, Bool.or_false]
    exact hk

theorem join_parts (b : Txt) : ∀ (ss : List Txt) (s : Txt), 
    s ++ ss.flatMap (fun u => 10 :: 45 :: 45 :: b ++ 10 :: u) ++ [10] =
      (s ++ [10]) ++ (ss.map (· ++ [10])).flatMap (fun u => txt "--" ++ b ++ 10 :: u) := by
  have e2 : txt "--" = [45, 45] := by decide
  intro ss
  induction ss with
  | nil => intro s; simp
  | cons x ss ih =>
    intro s
    have i := ih x
    rw [List.map_cons, List.flatMap_cons, List.flatMap_cons, e2] at *
    have e3 : ∀ A B C D : Txt, A ++ ((10 :: 45 :: 45 :: b ++ 10 :: B) ++ C) ++ D =
        (A ++ [10]) ++ ([45, 45] ++ b ++ 10 :: (B ++ C ++ D)) := by intros; simp
    rw [e3, i]
    simp

theorem passes_multi {T : Types} (mg : Bool) {w d : Bool} {hl pl el : List Txt} {ps : List (List Txt)} {sub b : Txt}
    (hh : NeatHead (widthOf w) hl) (hc : T.ctype (headOf hl) d = txt "multipart/" ++ sub)
    (hb : T.boundary (headOf hl) = some b) (hob : OneLine b) (hne : ps ≠ []) (hel : el ≠ [])
    (hlines : ∀ l ∈ pl ++ el, OneLine l) (hsep : ∀ l ∈ pl ++ ps.flatten, ¬ Separates b l)
    (ih : ∀ p ∈ ps, Passes T mg (w || sub == txt "signed") (sub == txt "digest") p) :
    Passes T mg w d (hl ++ [] :: (pl ++ (ps.flatMap (fun p => (txt "--" ++ b) :: p) ++
        (txt "--" ++ b ++ txt "--") :: el))) := by
  have hm : sepOf b (txt "--" ++ b ++ [10]) = some false := by
    have := sep_blank b false (w := []) (by simp)
    simpa using this
  have he : sepOf b (txt "--" ++ b ++ txt "--" ++ [10]) = some true := by
    have := sep_blank b true (w := []) (by simp)
    simpa using this
  have ho : OneLine (txt "--" ++ b) := sep_oneLine hob ⟨[], by simp, .inl (by simp)⟩
  have ho2 : OneLine (txt "--" ++ b ++ txt "--") := sep_oneLine hob ⟨[], by simp, .inr (by simp)⟩
  have hpl : ∀ l ∈ pl, OneLine l := fun l h => hlines l (by simp [h])
  have hell : ∀ l ∈ el, OneLine l := fun l h => hlines l (by simp [h])
  have hu : Unsep b (pl.map (· ++ [10])) := unsep_lf hob (fun l h => ⟨hpl l h, hsep l (by simp [h])⟩)
  have hdg : (T.ctype (headOf hl) d == txt "multipart/digest") = (sub == txt "digest") := by
    rw [hc]
    have : txt "multipart/digest" = txt "multipart/" ++ txt "digest" := by decide
    rw [this, Bool.eq_iff_iff]
    simp
  obtain ⟨ts, N, i1, i3, i2⟩ := passes_all mg _ _ ps ih
  have hlf : lf el ≠ [] := by
    obtain ⟨x, xs, rfl⟩ := List.exists_cons_of_ne_nil hel
    simp [lf]
  refine ⟨by simp, ?_, .cut (headOf hl) (if lf pl = [] then none else some (lf pl).dropLast) ts (some (lf el).dropLast),
    .cut (headOf hl) (if lf pl = [] then none else some (lf pl).dropLast) ts (some (lf el)), N + 1, ?_, ?_, ?_, ?_⟩
  · intro l hl
    rcases List.mem_append.1 hl with hl | hl
    · exact (neat_head hh l hl).1
    rcases List.mem_cons.1 hl with rfl | hl
    · simp [OneLine]
    rcases List.mem_append.1 hl with hl | hl
    · exact hpl l hl
    rcases List.mem_append.1 hl with hl | hl
    · obtain ⟨p, hp, hl⟩ := List.mem_flatMap.1 hl
      rcases List.mem_cons.1 hl with rfl | hl
      · exact ho
      · exact (ih p hp).lines l hl
    rcases List.mem_cons.1 hl with rfl | hl
    · exact ho2
    · exact hell l hl
  · intro n hn
    obtain ⟨n, rfl⟩ : ∃ n', n = n' + 1 := ⟨n - 1, by omega⟩
    rw [List.map_append, List.map_cons, List.nil_append, readTree_lf T _ _ (neat_head hh), kind_multi hc, hb, hdg]
    simp only
    obtain ⟨p0, ps', rfl⟩ := List.exists_cons_of_ne_nil hne
    have hseg := segments_all hm he (el.map (· ++ [10])) (ps'.map (fun p => p.map (· ++ [10]))) (p0.map (· ++ [10])) (by
      intro y hy
      rw [← List.map_cons (f := fun p : List Txt => p.map (· ++ [10]))] at hy
      obtain ⟨q, hq, rfl⟩ := List.mem_map.1 hy
      refine ⟨by have := (ih q hq).some; simpa using this, ?_⟩
      exact unsep_lf hob (fun l h => ⟨(ih q hq).lines l h, hsep l (by
        simp only [List.mem_append, List.mem_flatten]; exact .inr ⟨q, hq, h⟩)⟩))
    have hrest : (((p0 :: ps').flatMap (fun p => (txt "--" ++ b) :: p) ++ (txt "--" ++ b ++ txt "--") :: el).map (· ++ [10])) =
        (txt "--" ++ b ++ [10]) :: (p0.map (· ++ [10]) ++ ((ps'.map (fun p => p.map (· ++ [10]))).flatMap
          (fun y => (txt "--" ++ b ++ [10]) :: y) ++ (txt "--" ++ b ++ txt "--" ++ [10]) :: el.map (· ++ [10]))) := by
      simp [List.flatMap_map, List.map_flatMap]
    rw [neat_back hh, List.nil_append, List.map_append, hrest, preamble_lines hu hm]
    simp only [hseg, Option.map_some, lf_flatten]
    rw [preamble_cut (by
      intro l hl
      obtain ⟨y, hy, rfl⟩ := List.mem_map.1 hl
      exact ⟨y, hpl y hy, rfl⟩), lf_flatten, ← List.map_cons (f := fun p : List Txt => p.map (· ++ [10])), List.map_map]
    congr 1
    · by_cases h0 : pl = []
      · subst h0; rfl
      · obtain ⟨x, xs, rfl⟩ := List.exists_cons_of_ne_nil h0
        rw [if_neg (by simp), if_neg (by simp [lf])]
    · exact i1 n (by omega)
  · rw [trimLast, trimEpilogue, if_neg hlf, cutEnd_whole hell]
  · rw [NoStatus, hdg]
    exact i3
  · intro P hk
    obtain ⟨f, hf, hff⟩ := neat_fold P hk hh
    obtain ⟨xs, ss, k1, k2, k3⟩ := i2 (P.inside (txt "multipart/" ++ sub)) (width_inside P sub hk)
    have hx : ∀ pre epi w', flatten mg w' (.doc (T.ctype (headOf hl) d) f f [] pre epi b (.parts xs)) =
        .ok (lf hl ++ 10 :: assemble mg pre epi b ss) := by
      intro pre epi w'
      rw [flatten, bodyOf.eq_def]
      simp only [hc, handlerOf_multi, k2, ite_self, hff]
    have hpre : (if lf pl = [] then none else some (lf pl).dropLast : Option Txt).elim [] (fun p => written mg p ++ [10]) =
        lf (pl.map (quoted mg)) := by
      by_cases h0 : pl = []
      · subst h0; rfl
      · rw [if_neg (by
          obtain ⟨x, xs, rfl⟩ := List.exists_cons_of_ne_nil h0
          simp [lf])]
        exact written_chopped mg hpl h0
    obtain ⟨p0, ps', rfl⟩ := List.exists_cons_of_ne_nil hne
    obtain ⟨s0, ss', rfl⟩ : ∃ s0 ss', ss = s0 :: ss' := by
      cases ss with
      | nil => cases k3
      | cons a b => exact ⟨a, b, rfl⟩
    rw [List.map_cons, List.map_cons, List.cons.injEq] at k3
    obtain ⟨k3, k4⟩ := k3
    have hall : lf ((hl ++ [] :: (pl ++ ((p0 :: ps').flatMap (fun p => (txt "--" ++ b) :: p) ++
        (txt "--" ++ b ++ txt "--") :: el))).map (quoted mg)) =
        lf hl ++ 10 :: (lf (pl.map (quoted mg)) ++ (txt "--" ++ b ++ 10 :: ((s0 ++ [10]) ++
          (ss'.map (· ++ [10])).flatMap (fun u => txt "--" ++ b ++ 10 :: u)) ++
          (txt "--" ++ b ++ txt "--" ++ 10 :: lf (el.map (quoted mg))))) := by
      have e1 : (ps'.flatMap (fun p => (txt "--" ++ b) :: p)).map (quoted mg) =
          ps'.flatMap (fun p => (txt "--" ++ b) :: p.map (quoted mg)) := by
        rw [List.map_flatMap]
        congr 1
        funext p
        rw [List.map_cons, quoted_hyphens]
      have e2 : lf (ps'.flatMap (fun p => (txt "--" ++ b) :: p.map (quoted mg))) =
          ps'.flatMap (fun p => txt "--" ++ b ++ 10 :: lf (p.map (quoted mg))) := by
        rw [lf, List.flatMap_assoc]
        congr 1
        funext p
        simp [lf]
      have e3 : quoted mg (txt "--" ++ b ++ txt "--") = txt "--" ++ b ++ txt "--" := by
        rw [List.append_assoc, quoted_hyphens]
      rw [k3, k4, List.flatMap_map, List.map_append, neat_quoted mg hh, lf_append, List.map_cons, quoted_nil, lf_cons,
        List.nil_append, List.map_append, lf_append, List.flatMap_cons, List.map_append, lf_append, List.map_append,
        List.map_cons, quoted_hyphens, lf_append, lf_cons, e1, e2, List.map_cons, e3, lf_cons]
      simp
    have alg : ∀ H A B R : Txt, 
        H ++ 10 :: (A ++ 45 :: 45 :: b ++ 10 :: B ++ 10 :: 45 :: 45 :: b ++ 45 :: 45 :: 10 :: R) =
          H ++ 10 :: (A ++ (txt "--" ++ b ++ 10 :: (B ++ [10]) ++ (txt "--" ++ b ++ txt "--" ++ 10 :: R))) := by
      intro H A B R
      have e2 : txt "--" = [45, 45] := by decide
      rw [e2]
      simp
    have hd : ∀ epi, P.docOf T d (.cut (headOf hl) (if lf pl = [] then none else some (lf pl).dropLast) ts epi) =
        .ok (.doc (T.ctype (headOf hl) d) f f [] (if lf pl = [] then none else some (lf pl).dropLast) epi b
          (.parts xs)) := by
      intro epi
      rw [Printer.docOf, hdg, hc, k1, hf, hb]
      rfl
    refine ⟨⟨_, hd _, fun w' => ?_⟩, ⟨_, hd _, _, hx _ _, ?_⟩⟩
    · rw [hall, hx, assemble_some, hpre, written_whole mg hell, alg, join_parts]
    · rw [hall, assemble_some, hpre, alg, join_parts, ← written_chopped mg hell hel]
      simp

theorem passes {T : Types} (mg : Bool) {w d : Bool} {ls : List Txt} (h : NeatMail T w d ls) : Passes T mg w d ls := by
  induction h with
  | text h1 h2 h3 h4 h5 h6 => exact passes_text mg h1 h2 h3 h4 h5 h6
  | inner h1 h2 h3 _ ih => exact passes_inner mg h1 h2 h3 ih
  | multi h1 h2 h3 h4 h5 h6 h7 h8 _ ih => exact passes_multi mg h1 h2 h3 h4 h5 h6 h7 h8 ih

theorem neat_tree {P : Printer} {T : Types} (hT : T.ctype [] false = txt "text/plain") (mg : Bool) {ls : List Txt}
    (h : NeatMail T P.wide false ls) : NoStatus T false (readMail T (lf ls)) ∧
    ∃ x, P.docOf T false (readMail T (lf ls)) = .ok x ∧ ∀ w, flatten mg w x = .ok (lf (ls.map (quoted mg))) := by
  obtain ⟨-, h1, t0, t1, N, h2, -, h6, h3⟩ := passes mg h
  have hk : T.kind [] false ≠ .message := by
    rw [kind_text (main := txt "text") (sub := txt "plain") (by decide) (by rw [hT]; rfl)
      (by unfold PrintsAsText; decide)]
    simp
  have hr : readLines (lf ls) = ls.map (· ++ [10]) := by
    have := readLines_lfs h1 []
    simpa [readLines] using this
  have hread : readMail T (lf ls) = t1 := by
    rw [readMail, hr, ← h2 _ (Nat.le_max_left N (2 * (ls.map (· ++ [10])).length + 2))]
    exact depth_enough T hk _ _ _ _ (by simp [enough]) (by
      refine le_trans ?_ (Nat.le_max_right _ _); simp [enough])
  rw [hread]
  exact ⟨h6, (h3 P (by unfold widthOf Printer.max; rfl)).1⟩

/-- **C125.** A message in the form in which messages are written, of any depth, is
written with the lines that were read, but for `From ` at the beginning of a line, which
is quoted with `mangle_from_`. -/
theorem C125_lines (P : Printer) (T : Types) (hT : T.ctype [] false = txt "text/plain") (mg : Bool) (ls : List Txt)
    (h : NeatMail T P.wide false ls) :
    P.writeTree T mg (readMail T (lf ls)) = .ok (forceCrlf (lf (ls.map (quoted mg)))) := by
  obtain ⟨-, x, h4, h5⟩ := neat_tree hT mg h
  rw [Printer.writeTree, h4]
  simp only
  obtain ⟨ct, f, u, uf, pre, epi, b, pl⟩ := x
  rw [Mail.asString.eq_def]
  simp only [generate, h5]
  simp

/-- **C125.** The same without lines that are quoted: what is written is what was read. -/
theorem C125_unchanged_partial (P : Printer) (T : Types) (hT : T.ctype [] false = txt "text/plain") (mg : Bool)
    (ls : List Txt) (h : NeatMail T P.wide false ls) (hq : mg = true → ∀ l ∈ ls, ¬ txt "From " <+: l) :
    P.writeTree T mg (readMail T (lf ls)) = .ok (forceCrlf (lf ls)) := by
  have : ls.map (quoted mg) = ls := by
    conv_rhs => rw [← List.map_id ls]
    refine List.map_congr_left (fun l hl => ?_)
    cases mg with
    | false => rfl
    | true => exact if_neg (hq rfl l hl)
  rw [C125_lines P T hT mg ls h, this]

/-! ### The hypotheses can be met -/

theorem neat_line {k : Nat} (n v : Txt) (hn : FieldName n) (ha : Ascii v) (hv : ∀ c ∈ v, ¬ Ends c)
    (hb : ∀ c ∈ v.head?, c ≠ 32 ∧ c ≠ 9) (hk : (n ++ txt ": " ++ v).length ≤ k) : NeatLine k (n ++ txt ": " ++ v) := by
  refine ⟨n, v, hn, rfl, ha, hv, ?_, hk⟩
  rintro c r rfl
  exact hb c (by simp)

/-- A part of a signed message: a message in a multipart, with a header of two lines. -/
def deepPart : List Txt := [txt "Content-Type: multipart/mixed;bound=ab", [], txt "--ab", txt "Subject: hello",
  txt "\tworld", [], txt "From now on", [], txt "--ab", txt "Content-Type: message/rfc822", [], txt "X: y", [], txt "hi",
  txt "--ab--", []]

def deepLines : List Txt := [signedHead, [], txt "This is signed", txt "--b"] ++ deepPart ++
  [txt "--b", [], txt "signature", txt "--b--", []]

theorem deep_inner (w : Bool) : NeatMail plainTypes w false [txt "Content-Type: message/rfc822", [], txt "X: y", [], txt "hi"] := by
  refine NeatMail.inner (hl := [txt "Content-Type: message/rfc822"]) (sub := txt "rfc822") ?_ (by decide) (by decide) ?_
  · refine NeatHead.field (ms := []) (hl := []) ?_ (by simp) (by simp) .nil
    exact neat_line (txt "Content-Type") (txt "message/rfc822") ⟨by decide, by decide⟩ (by unfold Ascii; decide)
      (by unfold Ends; decide) (by decide) (by cases w <;> decide)
  · refine NeatMail.text (hl := [txt "X: y"]) (bl := [txt "hi"]) (main := txt "text") (sub := txt "plain") ?_ (by simp)
      (by unfold OneLine; decide) (by decide) (by decide) (by unfold PrintsAsText; decide)
    refine NeatHead.field (ms := []) (hl := []) ?_ (by simp) (by simp) .nil
    exact neat_line (txt "X") (txt "y") ⟨by decide, by decide⟩ (by unfold Ascii; decide) (by unfold Ends; decide)
      (by decide) (by cases w <;> decide)

theorem deep_first (w : Bool) : NeatMail plainTypes w false
    [txt "Subject: hello", txt "\tworld", [], txt "From now on", []] := by
  refine NeatMail.text (hl := [txt "Subject: hello", txt "\tworld"]) (bl := [txt "From now on", []]) (main := txt "text")
    (sub := txt "plain") ?_ (by simp) (by unfold OneLine; decide) (by decide) (by decide) (by unfold PrintsAsText; decide)
  refine NeatHead.field (ms := [txt "\tworld"]) (hl := []) ?_ ?_ ?_ .nil
  · exact neat_line (txt "Subject") (txt "hello") ⟨by decide, by decide⟩ (by unfold Ascii; decide)
      (by unfold Ends; decide) (by decide) (by cases w <;> decide)
  · intro m hm
    rw [List.mem_singleton] at hm
    subst hm
    exact ⟨⟨9, txt "world", by decide, .inr rfl⟩, ⟨txt "\tworl", 100, by decide, by decide⟩, by unfold Ascii; decide,
      by unfold Ends; decide, by cases w <;> decide⟩
  · intro _ r hr
    have := congrArg List.getLast? hr
    rw [List.getLast?_concat] at this
    exact absurd this (by decide)

theorem unsep_line {b l : Txt} (h : sepOf b l = none) : ¬ Separates b l := by
  intro hs
  have := sep_some hs (e := []) (by simp [EndOf])
  rw [List.append_nil] at this
  exact this h

set_option maxRecDepth 8000 in
theorem deep_part (w : Bool) : NeatMail plainTypes w false deepPart := by
  refine NeatMail.multi (hl := [txt "Content-Type: multipart/mixed;bound=ab"]) (pl := []) (el := [[]])
    (ps := [[txt "Subject: hello", txt "\tworld", [], txt "From now on", []],
      [txt "Content-Type: message/rfc822", [], txt "X: y", [], txt "hi"]]) (sub := txt "mixed") (b := txt "ab")
    ?_ (by decide) (by decide) (by unfold OneLine; decide) (by simp) (by simp) (by simp [OneLine]) ?_ ?_
  · refine NeatHead.field (ms := []) (hl := []) ?_ (by simp) (by simp) .nil
    exact neat_line (txt "Content-Type") (txt "multipart/mixed;bound=ab") ⟨by decide, by decide⟩ (by unfold Ascii; decide)
      (by unfold Ends; decide) (by decide) (by cases w <;> decide)
  · intro l hl
    refine unsep_line ?_
    revert l
    decide
  · intro p hp
    simp only [List.mem_cons, List.not_mem_nil, or_false] at hp
    rcases hp with rfl | rfl
    · exact deep_first _
    · exact deep_inner _

set_option maxRecDepth 8000 in
theorem deep_neat : NeatMail plainTypes false false deepLines := by
  refine NeatMail.multi (hl := [signedHead]) (pl := [txt "This is signed"]) (el := [[]])
    (ps := [deepPart, [[], txt "signature"]]) (sub := txt "signed") (b := txt "b")
    ?_ (by decide) (by decide) (by unfold OneLine; decide) (by simp) (by simp) (by unfold OneLine; decide) ?_ ?_
  · exact NeatHead.field (ms := []) (hl := []) (signed_neat _ (by simp)) (by simp) (by simp) .nil
  · intro l hl
    refine unsep_line ?_
    revert l
    decide
  · intro p hp
    simp only [List.mem_cons, List.not_mem_nil, or_false] at hp
    rcases hp with rfl | rfl
    · exact deep_part _
    · exact NeatMail.text (hl := []) (bl := [txt "signature"]) (main := txt "text") (sub := txt "plain") .nil (by simp)
        (by unfold OneLine; decide) (by decide) (by decide) (by unfold PrintsAsText; decide)

example : laxPrinter.writeTree plainTypes false (readMail plainTypes (lf deepLines)) = .ok (forceCrlf (lf deepLines)) :=
  C125_unchanged_partial laxPrinter plainTypes rfl false deepLines deep_neat (by simp)

/-- By default the line `From now on` in the signed part is quoted. -/
example : laxPrinter.writeTree plainTypes true (readMail plainTypes (lf deepLines)) ≠ .ok (forceCrlf (lf deepLines)) := by
  rw [C125_lines laxPrinter plainTypes rfl true deepLines deep_neat]
  intro h
  have := congrArg lines (Except.ok.inj h)
  rw [C43_same_lines, C43_same_lines] at this
  revert this
  decide

end Sb.Props
