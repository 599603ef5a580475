import Verif.Props.Reread
import Verif.Props.MessageText

/-
Property C117: what a reader sees of the text that insert_exception_header (message.py
l.567-598) returns.  The reader is `message_from_string`, Model/Fields.lean.
-/

set_option linter.unusedSectionVars false

namespace Sb.Props
open Sb.Mail Py

/-- A line of a header block and what ends it. -/
structure BlockLine (p : Txt × Txt) : Prop where
  line : OneLine p.1
  ends : p.2 = txt "\n" ∨ p.2 = txt "\r\n"

/-- The line begins a header, or continues one. -/
def InHeader (l : Txt) : Prop := Begins l ∨ ∃ r, l = 32 :: r ∨ l = 9 :: r

/-- A header block: lines ended by LF or CR LF, the first of which begins a header or is the
`From ` line of a mailbox; every other line begins a header or continues one. -/
structure Block (ls : List (Txt × Txt)) : Prop where
  each : ∀ p ∈ ls, BlockLine p
  first : ∃ p r, ls = p :: r ∧ (Begins p.1 ∨ ∃ u, p.1 = txt "From " ++ u)
  rest : ∀ p ∈ ls.tail, InHeader p.1

/-- The text of a block. -/
def blockText (ls : List (Txt × Txt)) : Txt := ls.flatMap fun p => p.1 ++ p.2

/-! ### Reading a block -/

theorem readLines_lf {l : Txt} (h : OneLine l) (r : Txt) : readLines (l ++ 10 :: r) = (l ++ [10]) :: readLines r := by
  induction l with
  | nil =>
    rw [List.nil_append, readLines_cons (by intro s hs; cases hs), if_pos (by simp)]; rfl
  | cons c l ih =>
    have hc := h c (by simp)
    rw [List.cons_append, readLines_cons (by intro s hs; exact hc.1 (List.cons.inj hs).1),
      if_neg (by simp [hc]), ih (fun x hx => h x (by simp [hx]))]
    rfl

theorem readLines_block {ls : List (Txt × Txt)} (h : ∀ p ∈ ls, BlockLine p) (r : Txt) :
    readLines (blockText ls ++ r) = ls.map (fun p => p.1 ++ p.2) ++ readLines r := by
  induction ls with
  | nil => rfl
  | cons p ls ih =>
    have hp := h p (by simp)
    have e : blockText (p :: ls) ++ r = p.1 ++ p.2 ++ (blockText ls ++ r) := by simp [blockText]
    rw [e, List.append_assoc]
    have ih := ih (fun x hx => h x (by simp [hx]))
    rcases hp.ends with he | he
    · rw [he, show txt "\n" ++ (blockText ls ++ r) = 10 :: (blockText ls ++ r) from rfl, readLines_lf hp.line, ih]
      simp [he, txt]
    · rw [he, show txt "\r\n" ++ (blockText ls ++ r) = 13 :: 10 :: (blockText ls ++ r) from rfl,
        readLines_oneLine hp.line, ih]
      simp [he, txt]

theorem begins_append {l : Txt} (h : Begins l) (e : Txt) : Begins (l ++ e) := by
  obtain ⟨n, r, hn, rfl⟩ := h
  exact ⟨n, r ++ e, hn, by simp⟩

theorem begins_header {l : Txt} (h : Begins l) : isHeaderLine l = true ∧ startsBlank l = false ∧
    (txt "From ").isPrefixOf l = false ∧ l.head? ≠ some 58 := by
  obtain ⟨n, r, hn, rfl⟩ := h
  have h1 := name_starts hn (58 :: r)
  refine ⟨?_, h1.1, name_not_from hn r, h1.2⟩
  rw [isHeaderLine, name_drop hn]
  simp

theorem takeHeaders_append {A : List Txt} (h : ∀ l ∈ A, isHeaderLine l = true) (r : List Txt) :
    takeHeaders (A ++ r) = (A ++ (takeHeaders r).1, (takeHeaders r).2) := by
  induction A with
  | nil => rfl
  | cons l A ih =>
    rw [List.cons_append, takeHeaders, if_pos (h l (by simp)), ih (fun x hx => h x (by simp [hx]))]
    rfl

theorem parseFields_begins {l : Txt} (h : Begins l) (first : Bool) (cur : List Txt) (r : List Txt) :
    parseFields first cur (l :: r) =
      { parseFields false [l] r with
        headers := (if cur = [] then [] else [sourceParse cur]) ++ (parseFields false [l] r).headers } := by
  obtain ⟨-, h2, h3, h4⟩ := begins_header h
  rw [parseFields, h2, h3, if_neg (by simp)]
  simp [h4]

theorem parseFields_from {l : Txt} (hb : startsBlank l = false) (hf : (txt "From ").isPrefixOf l = true) (r : List Txt) :
    parseFields true [] (l :: r) = { parseFields false [] r with unixfrom := some (cutEnd l) } := by
  rw [parseFields, hb, if_neg (by simp)]
  simp only [hf, if_true, List.nil_append]

/-- What is read of a block and a header after it. -/
theorem parseFields_append {A : List Txt} (hA : ∀ l ∈ A, Begins l ∨ startsBlank l = true) {l : Txt} (hl : Begins l)
    (B : List Txt) : ∀ (first : Bool) (cur : List Txt),
    parseFields first cur (A ++ l :: B) =
      { parseFields false [l] B with
        headers := (parseFields first cur A).headers ++ (parseFields false [l] B).headers } ∧
    (parseFields first cur A).unixfrom = none ∧ (parseFields first cur A).back = [] := by
  induction A with
  | nil =>
    intro first cur
    rw [List.nil_append, parseFields_begins hl]
    simp [parseFields]
  | cons a A ih =>
    intro first cur
    have ih := ih (fun x hx => hA x (by simp [hx]))
    rcases hA a (by simp) with ha | ha
    · rw [List.cons_append, parseFields_begins ha, parseFields_begins ha]
      obtain ⟨i1, i2, i3⟩ := ih false [a]
      rw [i1]
      exact ⟨by simp, i2, i3⟩
    · rw [List.cons_append, parseFields, if_pos ha, parseFields, if_pos ha]
      exact ih false _

theorem inHeader_line {l : Txt} (h : InHeader l) (e : Txt) : Begins (l ++ e) ∨ startsBlank (l ++ e) = true := by
  rcases h with h | ⟨r, rfl | rfl⟩
  · exact .inl (begins_append h e)
  · exact .inr rfl
  · exact .inr rfl

/-- What is read of a block, of a block with a header after it, and of the body. -/
theorem read_block {ls : List (Txt × Txt)} (h : Block ls) {z : Txt} (hz : z = txt "\n" ∨ z = txt "\r\n") (b : Txt)
    (n x : Txt) (fs : List Txt) (hn : FieldName n) (hx : OneLine (n ++ 58 :: x))
    (hf : ∀ l ∈ fs, OneLine l ∧ isHeaderLine (l ++ [13, 10]) = true) :
    (readMessage (blockText ls ++ z ++ b)).body = b ∧
    readMessage (blockText ls ++ ((n ++ 58 :: x) :: fs).flatMap (· ++ [13, 10]) ++ 13 :: 10 :: b) =
      (let q := parseFields false [n ++ 58 :: (x ++ [13, 10])] (fs.map (· ++ [13, 10]))
       ⟨(readMessage (blockText ls ++ z ++ b)).unixfrom, (readMessage (blockText ls ++ z ++ b)).headers ++ q.headers,
        q.back.flatten ++ b⟩) := by
  obtain ⟨p, r, rfl, hp⟩ := h.first
  have hz1 : ∃ y, readLines (z ++ b) = (z :: y) ∧ y.flatten = b ∧ isHeaderLine z = false ∧
      (z.head? = some 13 ∨ z.head? = some 10) := by
    rcases hz with rfl | rfl
    · refine ⟨readLines b, ?_, readLines_flatten b, by decide, .inr rfl⟩
      exact readLines_lf (l := []) (by intro c hc; cases hc) b
    · refine ⟨readLines b, ?_, readLines_flatten b, by decide, .inl rfl⟩
      exact readLines_oneLine (l := []) (by intro c hc; cases hc) b
  have hrest : ∀ l ∈ r.map (fun p => p.1 ++ p.2), Begins l ∨ startsBlank l = true := by
    intro l hl
    obtain ⟨q, hq, rfl⟩ := List.mem_map.1 hl
    exact inHeader_line (h.rest q hq) q.2
  have hhead : ∀ l, Begins l ∨ startsBlank l = true → isHeaderLine l = true := by
    intro l hl
    rcases hl with hl | hl
    · exact (begins_header hl).1
    · rw [isHeaderLine, hl]; simp
  have hall : ∀ l ∈ (p :: r).map (fun p => p.1 ++ p.2), isHeaderLine l = true := by
    intro l hl
    rw [List.map_cons] at hl
    rcases List.mem_cons.1 hl with rfl | hl
    · rcases hp with hp | ⟨u, hu⟩
      · exact (begins_header (begins_append hp _)).1
      · have : (txt "From ").isPrefixOf (p.1 ++ p.2) = true := by
          rw [hu, List.append_assoc]; exact List.isPrefixOf_iff_prefix.2 (List.prefix_append _ _)
        rw [isHeaderLine, this]; rfl
    · exact hhead l (hrest l hl)
  have key : ∀ (l : Txt) (B : List Txt), Begins l →
      parseFields true [] ((p :: r).map (fun p => p.1 ++ p.2) ++ l :: B) =
        { parseFields false [l] B with
          unixfrom := (parseFields true [] ((p :: r).map (fun p => p.1 ++ p.2))).unixfrom
          headers := (parseFields true [] ((p :: r).map (fun p => p.1 ++ p.2))).headers ++
            (parseFields false [l] B).headers } ∧
      (parseFields true [] ((p :: r).map (fun p => p.1 ++ p.2))).back = [] := by
    intro l B hl
    have hun : ∀ (B : List Txt) (cur : List Txt), (parseFields false cur B).unixfrom = none := by
      intro B
      induction B with
      | nil => intro cur; rfl
      | cons y B ih =>
        intro cur
        rw [parseFields]
        split
        · exact ih _
        · simp only [Bool.false_eq_true, if_false]
          split
          · split
            · rfl
            · exact ih _
          · split
            · exact ih _
            · exact ih _
    rcases hp with hp | ⟨u, hu⟩
    · have := parseFields_append (A := (p :: r).map (fun p => p.1 ++ p.2)) (by
        intro y hy
        rw [List.map_cons] at hy
        rcases List.mem_cons.1 hy with rfl | hy
        · exact .inl (begins_append hp _)
        · exact hrest y hy) hl B true []
      refine ⟨?_, this.2.2⟩
      rw [this.1, this.2.1, ← hun B [l]]
    · have hfr : (txt "From ").isPrefixOf (p.1 ++ p.2) = true := by
        rw [hu, List.append_assoc]; exact List.isPrefixOf_iff_prefix.2 (List.prefix_append _ _)
      have hnb : startsBlank (p.1 ++ p.2) = false := by rw [hu]; rfl
      have this := parseFields_append hrest hl B false []
      rw [List.map_cons, List.cons_append, parseFields_from hnb hfr, parseFields_from hnb hfr, this.1]
      exact ⟨rfl, this.2.2⟩
  have hbk := (key (n ++ 58 :: x) [] ⟨n, x, hn, rfl⟩).2
  obtain ⟨y, y1, y2, y3, y4⟩ := hz1
  have e0 : readLines (blockText (p :: r) ++ z ++ b) = (p :: r).map (fun p => p.1 ++ p.2) ++ z :: y := by
    rw [List.append_assoc, readLines_block h.each, y1]
  have t0 : takeHeaders (z :: y) = ([], y) := by rw [takeHeaders, y3, if_neg (by simp), if_pos y4]
  have e1 : readMessage (blockText (p :: r) ++ z ++ b) =
      ⟨(parseFields true [] ((p :: r).map (fun p => p.1 ++ p.2))).unixfrom,
        (parseFields true [] ((p :: r).map (fun p => p.1 ++ p.2))).headers, b⟩ := by
    rw [readMessage, e0, takeHeaders_append hall, t0]
    simp only [List.append_nil, hbk, List.nil_append, y2]
  have hol : ∀ l ∈ (n ++ 58 :: x) :: fs, OneLine l := by
    intro l hl
    rcases List.mem_cons.1 hl with rfl | hl
    · exact hx
    · exact (hf l hl).1
  have e2 : readLines (blockText (p :: r) ++ ((n ++ 58 :: x) :: fs).flatMap (· ++ [13, 10]) ++ 13 :: 10 :: b) =
      ((p :: r).map (fun p => p.1 ++ p.2) ++ ((n ++ 58 :: x) :: fs).map (· ++ [13, 10])) ++ [13, 10] :: readLines b := by
    rw [List.append_assoc, readLines_block h.each, readLines_lines hol]
    rw [show (13 :: 10 :: b : Txt) = [] ++ 13 :: 10 :: b from rfl, readLines_oneLine (by intro c hc; cases hc)]
    simp
  have hall2 : ∀ l ∈ (p :: r).map (fun p => p.1 ++ p.2) ++ ((n ++ 58 :: x) :: fs).map (· ++ [13, 10]),
      isHeaderLine l = true := by
    intro l hl
    rcases List.mem_append.1 hl with hl | hl
    · exact hall l hl
    · rw [List.map_cons] at hl
      rcases List.mem_cons.1 hl with rfl | hl
      · exact (begins_header ⟨n, x ++ [13, 10], hn, by simp⟩).1
      · obtain ⟨q, hq, rfl⟩ := List.mem_map.1 hl
        exact (hf q hq).2
  refine ⟨by rw [e1], ?_⟩
  have t1 : takeHeaders ([13, 10] :: readLines b) = ([], readLines b) := by
    rw [takeHeaders, if_neg (by decide), if_pos (.inl rfl)]
  rw [e1]
  conv_lhs => rw [readMessage, e2, takeHeaders_append hall2, t1]
  simp only [List.append_nil]
  have k := (key (n ++ 58 :: (x ++ [13, 10])) (fs.map (· ++ [13, 10])) ⟨n, _, hn, rfl⟩).1
  have e3 : (p :: r).map (fun p => p.1 ++ p.2) ++ ((n ++ 58 :: x) :: fs).map (· ++ [13, 10]) =
      (p :: r).map (fun p => p.1 ++ p.2) ++ (n ++ 58 :: (x ++ [13, 10])) :: fs.map (· ++ [13, 10]) := by simp
  rw [e3, k]
  simp only [List.flatten_append, readLines_flatten]

/-- What is read of a block alone, and of a block and a body. -/
theorem read_alone {ls : List (Txt × Txt)} (h : Block ls) :
    (readMessage (blockText ls)).body = [] ∧
    ∀ {z : Txt} (b : Txt), z = txt "\n" ∨ z = txt "\r\n" → readMessage (blockText ls ++ z ++ b) =
      { readMessage (blockText ls) with body := b } := by
  have k1 : ∀ {z : Txt} (b : Txt), z = txt "\n" ∨ z = txt "\r\n" →
      readLines (blockText ls ++ z ++ b) = readLines (blockText ls) ++ z :: readLines b := by
    intro z b hz
    have e : readLines (blockText ls) = ls.map (fun p => p.1 ++ p.2) := by
      have := readLines_block h.each []
      simpa [readLines] using this
    rw [List.append_assoc, readLines_block h.each, e]
    rcases hz with rfl | rfl
    · rw [show txt "\n" ++ b = [] ++ 10 :: b from rfl, readLines_lf (by intro c hc; cases hc)]; rfl
    · rw [show txt "\r\n" ++ b = [] ++ 13 :: 10 :: b from rfl, readLines_oneLine (by intro c hc; cases hc)]; rfl
  have hz2 : ∀ {z : Txt}, z = txt "\n" ∨ z = txt "\r\n" → ∀ r, takeHeaders (z :: r) = ([], r) := by
    intro z hz r
    rcases hz with rfl | rfl
    · rw [takeHeaders, if_neg (by decide), if_pos (.inr rfl)]
    · rw [takeHeaders, if_neg (by decide), if_pos (.inl rfl)]
  have hh : ∀ l ∈ readLines (blockText ls), isHeaderLine l = true := by
    have e : readLines (blockText ls) = ls.map (fun p => p.1 ++ p.2) := by
      have := readLines_block h.each []
      simpa [readLines] using this
    intro l hl
    rw [e] at hl
    obtain ⟨p, hp, rfl⟩ := List.mem_map.1 hl
    obtain ⟨p0, r, rfl, h0⟩ := h.first
    rcases List.mem_cons.1 hp with rfl | hp
    · rcases h0 with h0 | ⟨u, hu⟩
      · exact (begins_header (begins_append h0 _)).1
      · have : (txt "From ").isPrefixOf (p.1 ++ p.2) = true := by
          rw [hu, List.append_assoc]; exact List.isPrefixOf_iff_prefix.2 (List.prefix_append _ _)
        rw [isHeaderLine, this]; rfl
    · rcases inHeader_line (h.rest p hp) p.2 with h1 | h1
      · exact (begins_header h1).1
      · rw [isHeaderLine, h1]; simp
  have t1 : takeHeaders (readLines (blockText ls)) = (readLines (blockText ls), []) := by
    have := takeHeaders_append hh []
    simpa [takeHeaders] using this
  have hb := (read_block h (z := txt "\n") (.inl rfl) [] (txt "A") [] [] ⟨by decide, by decide⟩
    (by unfold OneLine; decide) (by simp)).1
  have e1 : ∀ {z : Txt} (b : Txt), z = txt "\n" ∨ z = txt "\r\n" → readMessage (blockText ls ++ z ++ b) =
      ⟨(parseFields true [] (readLines (blockText ls))).unixfrom, (parseFields true [] (readLines (blockText ls))).headers,
        (parseFields true [] (readLines (blockText ls))).back.flatten ++ b⟩ := by
    intro z b hz
    rw [readMessage, k1 b hz, takeHeaders_append hh, hz2 hz]
    simp [readLines_flatten]
  rw [e1 [] (.inl rfl)] at hb
  simp only [List.append_nil] at hb
  refine ⟨by rw [readMessage, t1]; simpa using hb, ?_⟩
  intro z b hz
  rw [e1 b hz, hb, readMessage, t1]
  rfl

/-! ### Where the function splits the text -/

theorem block_tight {ls : List (Txt × Txt)} (h : Block ls) :
    ∀ p q, blockText ls = p ++ 10 :: q → q ≠ [] → q.head? ≠ some 10 ∧ q.head? ≠ some 13 := by
  have gen : ∀ ls : List (Txt × Txt), (∀ p ∈ ls, BlockLine p) → (∀ p ∈ ls.tail, InHeader p.1) →
      ∀ p q, blockText ls = p ++ 10 :: q → q ≠ [] → q.head? ≠ some 10 ∧ q.head? ≠ some 13 := by
    intro ls
    induction ls with
    | nil => intro _ _ p q h; simp [blockText] at h
    | cons x ls ih =>
      intro h1 h2 p q h hq
      have hx := h1 x (by simp)
      have hnext : blockText ls ≠ [] → (blockText ls).head? ≠ some 10 ∧ (blockText ls).head? ≠ some 13 := by
        intro hne
        cases ls with
        | nil => exact absurd rfl hne
        | cons y ls =>
          have hy := h2 y (by simp)
          rcases hy with ⟨n, r, hn, hy⟩ | ⟨r, hy | hy⟩
          · obtain ⟨hn1, hn2⟩ := hn
            cases n with
            | nil => exact absurd rfl hn1
            | cons c n =>
              have := hn2 c (by simp)
              simp [blockText, hy]; omega
          · simp [blockText, hy]
          · simp [blockText, hy]
      have ih := ih (fun y hy => h1 y (by simp [hy])) (fun y hy => h2 y (by simpa using List.mem_of_mem_tail hy))
      have e : ∃ l', 10 ∉ l' ∧ blockText (x :: ls) = l' ++ 10 :: blockText ls := by
        rcases hx.ends with he | he
        · exact ⟨x.1, fun hm => (hx.line 10 hm).2 rfl, by simp [blockText, he, txt]⟩
        · refine ⟨x.1 ++ [13], ?_, by simp [blockText, he, txt]⟩
          intro hm
          rcases List.mem_append.1 hm with hm | hm
          · exact (hx.line 10 hm).2 rfl
          · simp at hm
      obtain ⟨l', hl', e⟩ := e
      rw [e] at h
      rcases List.append_eq_append_iff.1 h with ⟨a, ha, hb⟩ | ⟨c, hc, hd⟩
      · cases a with
        | nil =>
          simp at hb
          subst hb
          exact hnext hq
        | cons a0 a =>
          simp at hb
          exact ih a q hb.2 hq
      · cases c with
        | nil =>
          simp at hd
          subst hd
          exact hnext hq
        | cons c0 c =>
          simp at hd
          exact absurd (by rw [hc]; simp [hd.1]) hl'
  exact gen ls h.each h.rest

theorem block_splits {ls : List (Txt × Txt)} (h : Block ls) {z : Txt} (hz : z = txt "\n" ∨ z = txt "\r\n") (b : Txt) :
    ∃ h', blockText ls = h' ++ [10] ∧ Splits (blockText ls ++ z ++ b) h' (10 :: z) b := by
  have he : ∃ h', blockText ls = h' ++ [10] := by
    obtain ⟨p, r, h0, -⟩ := h.first
    have hne : ls ≠ [] := by rw [h0]; simp
    have e : ls = ls.dropLast ++ [ls.getLast hne] := (List.dropLast_append_getLast hne).symm
    have hl := (h.each _ (List.getLast_mem hne)).ends
    have e2 : blockText ls = blockText ls.dropLast ++ ((ls.getLast hne).1 ++ (ls.getLast hne).2) := by
      conv_lhs => rw [e]
      simp [blockText]
    rcases hl with hl | hl
    · exact ⟨blockText ls.dropLast ++ (ls.getLast hne).1, by rw [e2, hl]; simp [txt]⟩
    · exact ⟨blockText ls.dropLast ++ ((ls.getLast hne).1 ++ [13]), by rw [e2, hl]; simp [txt]⟩
  obtain ⟨h', he⟩ := he
  refine ⟨h', he, by rw [he]; simp, by rcases hz with rfl | rfl <;> simp [txt], ?_⟩
  intro p q hpq hq hb
  have key : ∃ q', q = 10 :: q' ∧ ((q' ++ [10]).head? = some 10 ∨ (q' ++ [10]).head? = some 13) := by
    cases q with
    | nil => exact absurd rfl hq
    | cons c q' =>
      rcases hb with ⟨b', hb⟩ | ⟨b', hb⟩
      · simp only [List.cons_append, List.cons.injEq] at hb
        refine ⟨q', by rw [hb.1], ?_⟩
        cases q' with
        | nil => exact .inl rfl
        | cons d q' => simp only [List.cons_append, List.cons.injEq] at hb; left; simp [hb.2.1]
      · simp only [List.cons_append, List.cons.injEq] at hb
        refine ⟨q', by rw [hb.1], ?_⟩
        cases q' with
        | nil => exact .inl rfl
        | cons d q' => simp only [List.cons_append, List.cons.injEq] at hb; right; simp [hb.2.1]
  obtain ⟨q', rfl, hk⟩ := key
  have := block_tight h p (q' ++ [10]) (by rw [he, hpq]; simp) (by simp)
  rcases hk with hk | hk
  · exact this.1 hk
  · exact this.2 hk

theorem block_noBlank {ls : List (Txt × Txt)} (h : Block ls) : NoBlank (blockText ls) := by
  intro p q hpq hb
  rcases hb with ⟨b, rfl⟩ | ⟨b, rfl⟩
  · exact (block_tight h p _ hpq (by simp)).1 rfl
  · exact (block_tight h p _ hpq (by simp)).2 rfl

/-! ### The folded traceback -/

theorem folds_pieces {t f : Txt} (h : Folds t f) (hc : NoLoneCr t) :
    ∃ (d : Txt) (more : List Txt), f = d ++ more.flatMap (fun l => 13 :: 10 :: 32 :: l) ∧ OneLine d ∧ (∀ l ∈ more, OneLine l) ∧
      ∀ c r, d = c :: r → ∃ r', t = c :: r' := by
  have tail : ∀ {c : Nat} {r : Txt}, NoLoneCr (c :: r) → NoLoneCr r := by
    intro c r h i hi
    have := h (i + 1) (by simpa using hi)
    simpa using this
  induction h with
  | nil => exact ⟨[], [], rfl, (by intro c hc; cases hc), (by simp), (by intro c r h; cases h)⟩
  | @crlf r f _ ih =>
    obtain ⟨d, more, rfl, h1, h2, -⟩ := ih (tail (tail hc))
    refine ⟨[], d :: more, rfl, (by intro c hc; cases hc), ?_, (by intro c r h; cases h)⟩
    intro l hl
    rcases List.mem_cons.1 hl with rfl | hl
    · exact h1
    · exact h2 l hl
  | @lf r f _ ih =>
    obtain ⟨d, more, rfl, h1, h2, -⟩ := ih (tail hc)
    refine ⟨[], d :: more, rfl, (by intro c hc; cases hc), ?_, (by intro c r h; cases h)⟩
    intro l hl
    rcases List.mem_cons.1 hl with rfl | hl
    · exact h1
    · exact h2 l hl
  | @other c r f hc1 hc2 _ ih =>
    obtain ⟨d, more, rfl, h1, h2, -⟩ := ih (tail hc)
    have h13 : c ≠ 13 := by
      rintro rfl
      have := hc 0 rfl
      cases r with
      | nil => cases this
      | cons d r =>
        simp at this
        exact hc2 r (by rw [this])
    refine ⟨c :: d, more, rfl, ?_, h2, ?_⟩
    · intro x hx
      rcases List.mem_cons.1 hx with rfl | hx
      · exact ⟨h13, hc1⟩
      · exact h1 x hx
    · intro x y hxy
      exact ⟨r, by rw [(List.cons.inj hxy).1]⟩

theorem noLoneCr_trimmed {s t : Txt} (h : Trimmed s t) (hc : NoLoneCr s) : NoLoneCr t := by
  obtain ⟨a, b, rfl, -, -, -, h5⟩ := h
  intro i hi
  have hlt : i < t.length := by
    by_contra hn
    rw [List.getElem?_eq_none (by omega)] at hi
    cases hi
  have h1 := hc (a.length + i) (by
    rw [List.append_assoc, List.getElem?_append_right (by omega), Nat.add_sub_cancel_left, List.getElem?_append_left hlt]
    exact hi)
  rw [List.append_assoc, List.getElem?_append_right (by omega)] at h1
  have e : a.length + i + 1 - a.length = i + 1 := by omega
  rw [e] at h1
  by_cases hl : i + 1 < t.length
  · rwa [List.getElem?_append_left hl] at h1
  · exfalso
    have : t.getLast? = some 13 := by
      rw [List.getLast?_eq_getElem?, show t.length - 1 = i by omega, hi]
    exact absurd (h5 13 this) (by decide)

/-- The value of a header that is read, exactly. -/
theorem sourceParse_exact {n d : Txt} {more : List Txt} (hn : FieldName n) (hd : OneLine d)
    (hm : ∀ l ∈ more, OneLine l) (hb : ∀ c r, d = c :: r → c ≠ 32 ∧ c ≠ 9) :
    sourceParse ((Field.lines ⟨n, d, more.map (32 :: ·)⟩).map (· ++ [13, 10])) =
      (n, .str (d ++ more.flatMap (fun l => 13 :: 10 :: 32 :: l))) := by
  have h58 : ∀ c ∈ n, (c != 58) = true := by
    intro c hc
    have := hn.2 c hc
    simp [this]
  have e : ((Field.lines ⟨n, d, more.map (32 :: ·)⟩).map (· ++ [13, 10])).headD [] = n ++ 58 :: (32 :: (d ++ [13, 10])) := by
    simp [Field.lines]
  have e2 : ((Field.lines ⟨n, d, more.map (32 :: ·)⟩).map (· ++ [13, 10])).tail.flatten =
      more.flatMap (fun l => 32 :: (l ++ [13, 10])) := by
    simp [Field.lines, List.flatMap_def, Function.comp_def]
  rw [sourceParse]
  simp only [e, e2]
  rw [List.takeWhile_append_of_pos h58, List.dropWhile_append_of_pos h58]
  have t1 : (58 :: (32 :: (d ++ [13, 10]))).takeWhile (· != 58) = [] := by simp
  have t2 : (58 :: (32 :: (d ++ [13, 10]))).dropWhile (· != 58) = 58 :: (32 :: (d ++ [13, 10])) := by simp
  rw [t1, t2, List.append_nil, List.drop_succ_cons, List.drop_zero]
  have t3 : (32 :: (d ++ [13, 10])).dropWhile isBlank = d ++ [13, 10] := by
    rw [List.dropWhile_cons_of_pos (by decide)]
    cases d with
    | nil => decide
    | cons c d =>
      have := hb c d rfl
      rw [List.cons_append, List.dropWhile_cons_of_neg (by simp [isBlank, this])]
  rw [t3]
  have t4 : ∀ (more : List Txt) (x : Txt), x ++ [13, 10] ++ more.flatMap (fun l => 32 :: (l ++ [13, 10])) =
      x ++ more.flatMap (fun l => 13 :: 10 :: 32 :: l) ++ [13, 10] := by
    intro more
    induction more with
    | nil => intro x; simp
    | cons l more ih =>
      intro x
      have := ih (x ++ 13 :: 10 :: 32 :: l)
      simpa using this
  rw [t4]
  have t5 : ∀ x : Txt, (∀ c, x.getLast? = some c → c ≠ 13 ∧ c ≠ 10) →
      ((x ++ [13, 10]).reverse.dropWhile (fun c => c == 13 || c == 10)).reverse = x := by
    intro x hx
    rw [List.reverse_append]
    rw [show ([13, 10] : Txt).reverse ++ x.reverse = 10 :: 13 :: x.reverse from rfl, List.dropWhile_cons_of_pos (by decide),
      List.dropWhile_cons_of_pos (by decide)]
    cases hr : x.reverse with
    | nil => simp at hr; rw [hr]; rfl
    | cons c r =>
      have : x.getLast? = some c := by rw [← List.head?_reverse, hr]; rfl
      have := hx c this
      rw [List.dropWhile_cons_of_neg (by simp [this]), ← hr, List.reverse_reverse]
  rw [t5]
  intro c hc
  rcases List.eq_nil_or_concat more with rfl | ⟨ms, l, rfl⟩
  · simp only [List.flatMap_nil, List.append_nil] at hc
    exact hd c (List.mem_of_getLast? hc)
  · have hl := hm l (by simp)
    have : (d ++ (ms ++ [l]).flatMap (fun l => 13 :: 10 :: 32 :: l)).getLast? = (32 :: l).getLast? := by
      have e3 : d ++ (ms ++ [l]).flatMap (fun l => 13 :: 10 :: 32 :: l) =
          (d ++ ms.flatMap (fun l => 13 :: 10 :: 32 :: l) ++ [13, 10]) ++ 32 :: l := by simp
      rw [e3, List.getLast?_append_cons]
    rw [List.concat_eq_append, this] at hc
    rcases List.mem_cons.1 (List.mem_of_getLast? hc) with rfl | hc
    · decide
    · exact hl c hc

/-! ### What the reader sees -/

/-- The header for an id that is not empty. -/
def idHeaders : Option Txt → Headers
  | some (c :: r) => [(txt "X-Spambayes-MailId", .str (c :: r))]
  | _ => []

theorem exceptionLines_split (details : Txt) : ∀ msgId, ∃ y, exceptionLines details msgId =
    txt "\n" ++ exceptionName ++ txt ": " ++ crlfSub (spaced (strip details)) ++ txt "\r\n" ++ y ∧
    y = (match msgId with
      | some (c :: r) => mailIdName ++ txt ": " ++ (c :: r) ++ txt "\r\n"
      | _ => [])
  | none => ⟨_, rfl, rfl⟩
  | some [] => ⟨_, rfl, rfl⟩
  | some (c :: r) => ⟨_, rfl, by simp⟩

/-- **C117.** In a message with a header block and a body, whatever they are, the reader
sees after the call the same `From ` line, the same headers followed by the exception
header and the id header (if an id is given), and the same body.  The value of the
exception header is the traceback, trimmed, with a space before every line but the first.
`_partial`: not if the traceback has a CR that is not followed by LF. -/
theorem C117_seen_partial (details : Txt) (ls : List (Txt × Txt)) (h : Block ls) (z b : Txt)
    (hz : z = txt "\n" ∨ z = txt "\r\n") (msgId : Option Txt) (hd : NoLoneCr details)
    (hid : ∀ i, msgId = some i → OneLine i ∧ ∀ c r, i = c :: r → c ≠ 32 ∧ c ≠ 9) :
    let before := readMessage (blockText ls ++ z ++ b)
    let seen := readMessage (insertExceptionHeader details (blockText ls ++ z ++ b) msgId).1
    ∃ text folded, Trimmed details text ∧ Folds text folded ∧
      seen.unixfrom = before.unixfrom ∧
      seen.headers = before.headers ++ (txt "X-Spambayes-Exception", .str folded) :: idHeaders msgId ∧
      seen.body = b ∧ before.body = b := by
  intro before seen
  obtain ⟨h', e1, hs⟩ := block_splits h hz b
  have ht := trimmed_strip details
  have hf := folds_fold (strip details)
  obtain ⟨d, more, hp, hp1, hp2, hp3⟩ := folds_pieces hf (noLoneCr_trimmed ht hd)
  have hd0 : ∀ c r, d = c :: r → c ≠ 32 ∧ c ≠ 9 := by
    intro c r hcr
    obtain ⟨r', hr'⟩ := hp3 c r hcr
    obtain ⟨-, -, -, -, -, h4, -⟩ := ht
    have := h4 c (by rw [hr']; rfl)
    constructor <;> (rintro rfl; exact absurd this (by decide))
  refine ⟨strip details, crlfSub (spaced (strip details)), ht, hf, ?_⟩
  have hE : FieldName (txt "X-Spambayes-Exception") := ⟨by decide, by decide⟩
  have hI : FieldName (txt "X-Spambayes-MailId") := ⟨by decide, by decide⟩
  -- the fields that are added
  obtain ⟨ids, hids, hids1, hids2⟩ : ∃ ids : List Field, (∀ f ∈ ids, f.Fine) ∧
      exceptionLines details msgId = txt "\n" ++ exceptionName ++ txt ": " ++ crlfSub (spaced (strip details)) ++
        txt "\r\n" ++ (ids.flatMap Field.lines).flatMap (· ++ [13, 10]) ∧
      ids.map (fun f => sourceParse (f.lines.map (· ++ [13, 10]))) =
        idHeaders msgId := by
    obtain ⟨y, hy1, hy2⟩ := exceptionLines_split details msgId
    rw [hy1, hy2]
    clear hy1 hy2
    cases msgId with
    | none => exact ⟨[], by simp, rfl, rfl⟩
    | some i =>
      obtain ⟨hi1, hi2⟩ := hid i rfl
      cases i with
      | nil => exact ⟨[], by simp, rfl, rfl⟩
      | cons c r =>
        refine ⟨[⟨txt "X-Spambayes-MailId", c :: r, []⟩], ?_, ?_, ?_⟩
        · intro f hf
          rw [List.mem_singleton] at hf
          subst hf
          exact ⟨hI, hi1, by simp⟩
        · simp only [List.append_cancel_left_eq]
          simp [Field.lines, txt, mailIdName]
        · have := sourceParse_exact (more := []) hI hi1 (by simp) hi2
          simpa [idHeaders] using this
  let F : Field := ⟨txt "X-Spambayes-Exception", d, more.map (32 :: ·)⟩
  have hF : F.Fine := by
    refine ⟨hE, hp1, ?_⟩
    intro l hl
    obtain ⟨x, hx, rfl⟩ := List.mem_map.1 hl
    refine ⟨?_, rfl⟩
    intro c hc
    rcases List.mem_cons.1 hc with rfl | hc
    · decide
    · exact hp2 x hx c hc
  have hall : ∀ f ∈ F :: ids, f.Fine := by
    intro f hf
    rcases List.mem_cons.1 hf with rfl | hf
    · exact hF
    · exact hids f hf
  have hout : (insertExceptionHeader details (blockText ls ++ z ++ b) msgId).1 =
      blockText ls ++ ((F :: ids).flatMap Field.lines).flatMap (· ++ [13, 10]) ++ 13 :: 10 :: b := by
    unfold insertExceptionHeader
    rw [splitBlank_splits hs]
    simp only
    rw [hids1, hp, e1]
    have hmore : ∀ (ls : List Txt) (x : Txt), (x ++ [13, 10]) ++ (ls.map (32 :: ·)).flatMap (· ++ [13, 10]) =
        x ++ ls.flatMap (fun l => 13 :: 10 :: 32 :: l) ++ [13, 10] := by
      intro ls
      induction ls with
      | nil => intro x; simp
      | cons l ls ih =>
        intro x
        have := ih (x ++ 13 :: 10 :: 32 :: l)
        simpa using this
    rw [List.flatMap_cons, List.flatMap_append]
    have e5 : F.lines.flatMap (· ++ [13, 10]) = exceptionName ++ txt ": " ++
        (d ++ more.flatMap (fun l => 13 :: 10 :: 32 :: l)) ++ txt "\r\n" := by
      have := hmore more (exceptionName ++ txt ": " ++ d)
      have e6 : F.lines.flatMap (· ++ [13, 10]) =
          (exceptionName ++ txt ": " ++ d ++ [13, 10]) ++ (more.map (32 :: ·)).flatMap (· ++ [13, 10]) := by
        simp [F, Field.lines, exceptionName, txt]
      rw [e6, this]
      simp [txt]
    rw [e5]
    simp [txt]
  have hlines : ∀ l ∈ (F :: ids).flatMap Field.lines, OneLine l ∧ isHeaderLine (l ++ [13, 10]) = true := by
    intro l hl
    obtain ⟨f, hf, hl⟩ := List.mem_flatMap.1 hl
    refine ⟨(hall f hf).oneLine l hl, ?_⟩
    rcases List.mem_cons.1 hl with rfl | hl
    · exact (begins_header (begins_append ⟨f.name, _, (hall f hf).name, rfl⟩ _)).1
    · obtain ⟨-, hb⟩ := (hall f hf).more l hl
      cases l with
      | nil => cases hb
      | cons c l => rw [isHeaderLine, show startsBlank (c :: l ++ [13, 10]) = startsBlank (c :: l) from rfl, hb]; simp
  have hsplit : (F :: ids).flatMap Field.lines =
      (txt "X-Spambayes-Exception" ++ 58 :: (32 :: d)) :: (F.more ++ ids.flatMap Field.lines) := by
    simp [F, Field.lines]
  have hx : OneLine (txt "X-Spambayes-Exception" ++ 58 :: (32 :: d)) :=
    (hlines _ (by rw [hsplit]; simp)).1
  obtain ⟨r1, r2⟩ := read_block h hz b (txt "X-Spambayes-Exception") (32 :: d) (F.more ++ ids.flatMap Field.lines) hE hx
    (fun l hl => hlines l (by rw [hsplit]; exact List.mem_cons_of_mem _ hl))
  have hpf := parseFields_fields hall false [] (by simp)
  rw [hsplit, List.map_cons, parseFields_begins (begins_append ⟨_, _, hE, rfl⟩ _)] at hpf
  simp only [if_true, List.nil_append] at hpf
  have hq : parseFields false [txt "X-Spambayes-Exception" ++ 58 :: (32 :: d ++ [13, 10])]
      ((F.more ++ ids.flatMap Field.lines).map (· ++ [13, 10])) =
      ⟨none, (F :: ids).map (fun f => sourceParse (f.lines.map (· ++ [13, 10]))), []⟩ := by
    rw [← hpf]
    simp
  have hseen : seen = ⟨before.unixfrom, before.headers ++
      (F :: ids).map (fun f => sourceParse (f.lines.map (· ++ [13, 10]))), b⟩ := by
    show readMessage _ = _
    rw [hout, hsplit, r2, hq]
    rfl
  rw [hseen]
  refine ⟨rfl, ?_, rfl, r1⟩
  show before.headers ++ _ = _
  rw [List.map_cons, hids2, sourceParse_exact hE hp1 hp2 hd0, ← hp]

/-- In a message that ends with its header block, without a blank line, the reader sees
none of the added headers: they are the body. -/
theorem C117_unseen (details : Txt) (ls : List (Txt × Txt)) (h : Block ls) (msgId : Option Txt) :
    let before := readMessage (blockText ls)
    let seen := readMessage (insertExceptionHeader details (blockText ls) msgId).1
    seen.headers = before.headers ∧ before.body = [] ∧ ∃ r, seen.body = txt "X-Spambayes-Exception: " ++ r := by
  intro before seen
  obtain ⟨h1, h2⟩ := read_alone h
  have e : ∃ r, (insertExceptionHeader details (blockText ls) msgId).1 =
      blockText ls ++ txt "\n" ++ (txt "X-Spambayes-Exception: " ++ r) := by
    unfold insertExceptionHeader
    rw [splitBlank_none (block_noBlank h)]
    obtain ⟨y, hy, -⟩ := exceptionLines_split details msgId
    simp only
    rw [hy]
    refine ⟨crlfSub (spaced (strip details)) ++ txt "\r\n" ++ y ++ txt "\r\n", ?_⟩
    simp only [List.append_nil, List.append_assoc]
    rfl
  obtain ⟨r, e⟩ := e
  refine ⟨?_, h1, r, ?_⟩
  · show (readMessage _).headers = _
    rw [e, h2 _ (.inl rfl)]
  · show (readMessage _).body = _
    rw [e, h2 _ (.inl rfl)]

/-- The claim for all tracebacks. -/
def C117Claim : Prop := ∀ (details : Txt) (ls : List (Txt × Txt)) (z b : Txt), Block ls →
  z = txt "\n" ∨ z = txt "\r\n" →
  ∀ e ∈ (readMessage (insertExceptionHeader details (blockText ls ++ z ++ b) none).1).headers,
    e ∈ (readMessage (blockText ls ++ z ++ b)).headers ∨ e.1 = txt "X-Spambayes-Exception"

theorem sample_block : Block [(txt "Subject: a", txt "\n"), (txt " b", txt "\r\n")] := by
  refine ⟨?_, ⟨_, _, rfl, .inl ⟨txt "Subject", txt " a", ⟨by decide, by decide⟩, by decide⟩⟩, ?_⟩
  · intro p hp
    simp only [List.mem_cons, List.not_mem_nil, or_false] at hp
    rcases hp with rfl | rfl
    · exact ⟨by unfold OneLine; decide, .inl rfl⟩
    · exact ⟨by unfold OneLine; decide, .inr rfl⟩
  · intro p hp
    simp only [List.tail_cons, List.mem_cons, List.not_mem_nil, or_false] at hp
    subst hp
    exact .inr ⟨txt "b", .inl rfl⟩

/-- A traceback with a CR forges a header. -/
theorem C117_forged :
    (readMessage (insertExceptionHeader (txt "E: x\rX-Spambayes-Classification: ham") (txt "Subject: a\n b\r\n\nhi") none).1).headers =
      [(txt "Subject", .str (txt "a\n b")), (txt "X-Spambayes-Exception", .str (txt "E: x")),
        (txt "X-Spambayes-Classification", .str (txt "ham"))] := by decide

theorem C117_claim_false : ¬ C117Claim := by
  intro h
  have := h (txt "E: x\rX-Spambayes-Classification: ham") _ (txt "\n") (txt "hi") sample_block (.inl rfl)
    (txt "X-Spambayes-Classification", .str (txt "ham")) (by
      rw [show blockText [(txt "Subject: a", txt "\n"), (txt " b", txt "\r\n")] ++ txt "\n" ++ txt "hi" =
        txt "Subject: a\n b\r\n\nhi" by decide, C117_forged]
      simp)
  rw [show (readMessage (blockText [(txt "Subject: a", txt "\n"), (txt " b", txt "\r\n")] ++ txt "\n" ++ txt "hi")).headers =
    [(txt "Subject", .str (txt "a\n b"))] by decide] at this
  revert this
  decide

example : NoLoneCr (txt "Traceback\r\n File\nE") := by
  intro i hi
  have : i < 20 := by
    by_contra hn
    rw [List.getElem?_eq_none (by simp [txt]; omega)] at hi
    cases hi
  have all : ∀ i < 20, (txt "Traceback\r\n File\nE")[i]? = some 13 → (txt "Traceback\r\n File\nE")[i + 1]? = some 10 := by
    decide
  exact all i this hi

end Sb.Props
