import Verif.Props.Folding

/-
C116: what is written can be read again.
-/

set_option linter.unusedSectionVars false

namespace Sb.Props
open Py Py.Text Sb.Mail

/-! ### What the claims are about -/

/-- A name a header can have: printable ASCII characters but for the colon. -/
def FieldName (n : Txt) : Prop := n ≠ [] ∧ ∀ c ∈ n, 33 ≤ c ∧ c ≤ 126 ∧ c ≠ 58

/-- Where `str.splitlines` ends a line, among the ASCII characters. -/
def Ends (c : Nat) : Prop := c = 10 ∨ c = 11 ∨ c = 12 ∨ c = 13 ∨ c = 28 ∨ c = 29 ∨ c = 30

/-- All lines of the value but the first begin with a space or a tab: what ends a line is
at the end of the value, or is followed by a blank, or is the CR of a CR LF. -/
def Continued (v : Txt) : Prop :=
  ∀ a c d b, v = a ++ c :: d :: b → Ends c → d = 32 ∨ d = 9 ∨ c = 13 ∧ d = 10

def Ascii (v : Txt) : Prop := ∀ c ∈ v, c < 128

/-- The value read has the words of the value that was written. -/
inductive SameWords : Stored → Stored → Prop
  | str {v v' : Txt} : words isSpace v' = words isSpace v → SameWords (.str v) (.str v')
  | none {v' : Txt} : words isSpace v' = [] → SameWords .none (.str v')

/-- A value of one line that fits into it together with the name of the header. -/
def Short (n v : Txt) : Prop :=
  (∀ c ∈ v, ¬ Ends c) ∧ (∀ c r, v = c :: r → c ≠ 32 ∧ c ≠ 9) ∧ n.length + 2 + v.length ≤ 78

/-- The headers that are read are those that were written: the names are the same, values
have the same words, and short values are the same. -/
def SameHeaders (hs hs' : Headers) : Prop :=
  List.Forall₂ (fun x y => y.1 = x.1 ∧ SameWords x.2 y.2 ∧
    ∀ v, x.2 = .str v → Short x.1 v → y.2 = .str v) hs hs'

/-! ### Lines -/

theorem crlf_oneLine {l : Txt} (h : OneLine l) (r : Txt) : forceCrlf (l ++ 10 :: r) = l ++ 13 :: 10 :: forceCrlf r := by
  induction l with
  | nil => rw [List.nil_append, crlf_cons (by intro s h; cases h)]; simp
  | cons c l ih =>
    have hc := h c (by simp)
    rw [List.cons_append, crlf_cons (by intro s hs; exact hc.1 (List.cons.inj hs).1),
      ih (fun x hx => h x (by simp [hx])), if_neg (by simp [hc])]
    rfl

theorem crlf_lines {ls : List Txt} (h : ∀ l ∈ ls, OneLine l) (r : Txt) :
    forceCrlf (ls.flatMap (· ++ [10]) ++ r) = ls.flatMap (· ++ [13, 10]) ++ forceCrlf r := by
  induction ls with
  | nil => rfl
  | cons l ls ih =>
    simp only [List.flatMap_cons, List.append_assoc, List.cons_append, List.nil_append]
    rw [crlf_oneLine (h l (by simp)), ih (fun x hx => h x (by simp [hx]))]

theorem readLines_cons {c : Nat} {r : Txt} (h : ∀ s, c :: r ≠ 13 :: 10 :: s) :
    readLines (c :: r) = if c = 13 ∨ c = 10 then [c] :: readLines r
      else match readLines r with
        | [] => [[c]]
        | l :: ls => (c :: l) :: ls := by
  rw [readLines]
  · rfl
  · intro s h1 h2; exact h s (by rw [h1, h2])

theorem readLines_oneLine {l : Txt} (h : OneLine l) (r : Txt) :
    readLines (l ++ 13 :: 10 :: r) = (l ++ [13, 10]) :: readLines r := by
  induction l with
  | nil => rw [List.nil_append, readLines]; rfl
  | cons c l ih =>
    have hc := h c (by simp)
    rw [List.cons_append, readLines_cons (by intro s hs; exact hc.1 (List.cons.inj hs).1),
      ih (fun x hx => h x (by simp [hx])), if_neg (by simp [hc])]
    rfl

theorem readLines_lines {ls : List Txt} (h : ∀ l ∈ ls, OneLine l) (r : Txt) :
    readLines (ls.flatMap (· ++ [13, 10]) ++ r) = ls.map (· ++ [13, 10]) ++ readLines r := by
  induction ls with
  | nil => rfl
  | cons l ls ih =>
    simp only [List.flatMap_cons, List.append_assoc, List.cons_append, List.nil_append, List.map_cons]
    rw [readLines_oneLine (h l (by simp)), ih (fun x hx => h x (by simp [hx]))]

theorem readLines_flatten (t : Txt) : (readLines t).flatten = t := by
  induction t using crlf_induction with
  | h0 => rfl
  | h1 r ih => rw [readLines]; simp [ih]
  | h2 c r h ih =>
    rw [readLines_cons h]
    split
    · simp [ih]
    · cases hr : readLines r with
      | nil => rw [hr] at ih; simp at ih; subst ih; rfl
      | cons l ls => rw [hr] at ih; simp at ih ⊢; exact ih

/-! ### Reading the lines of headers -/

theorem name_drop {n : Txt} (hn : FieldName n) (r : Txt) :
    (n ++ 58 :: r).dropWhile isFieldChar = 58 :: r := by
  have : ∀ c ∈ n, isFieldChar c = true := by
    intro c hc
    have := hn.2 c hc
    simp [isFieldChar, this]
  rw [List.dropWhile_append_of_pos this, List.dropWhile_cons_of_neg (by decide)]

theorem name_not_from {n : Txt} (hn : FieldName n) (r : Txt) :
    (txt "From ").isPrefixOf (n ++ 58 :: r) = false := by
  cases h : (txt "From ").isPrefixOf (n ++ 58 :: r) with
  | false => rfl
  | true =>
    obtain ⟨t, ht⟩ := List.isPrefixOf_iff_prefix.1 h
    have h1 := name_drop hn r
    rw [← ht] at h1
    have h2 : (txt "From " ++ t).dropWhile isFieldChar = 32 :: t := rfl
    rw [h2] at h1
    cases h1

theorem name_starts {n : Txt} (hn : FieldName n) (r : Txt) :
    startsBlank (n ++ r) = false ∧ (n ++ r).head? ≠ some 58 := by
  obtain ⟨hne, hc⟩ := hn
  cases n with
  | nil => exact absurd rfl hne
  | cons c n =>
    have := hc c (by simp)
    refine ⟨?_, ?_⟩
    · simp only [startsBlank, List.cons_append, List.head?_cons, Option.map_some, Option.getD_some, isBlank]
      rw [Bool.or_eq_false_iff]
      exact ⟨by simp; omega, by simp; omega⟩
    · simp; omega

/-- The lines of a header as they are written: its name, and the lines of its value. -/
structure Field where
  name : Txt
  first : Txt
  more : List Txt

def Field.lines (f : Field) : List Txt := (f.name ++ 58 :: 32 :: f.first) :: f.more

structure Field.Fine (f : Field) : Prop where
  name : FieldName f.name
  first : OneLine f.first
  more : ∀ l ∈ f.more, OneLine l ∧ startsBlank l = true

theorem Field.Fine.oneLine {f : Field} (h : f.Fine) : ∀ l ∈ f.lines, OneLine l := by
  intro l hl
  rcases List.mem_cons.1 hl with rfl | hl
  · intro c hc
    rcases List.mem_append.1 hc with hc | hc
    · have := h.name.2 c hc
      omega
    · rcases List.mem_cons.1 hc with rfl | hc
      · decide
      · rcases List.mem_cons.1 hc with rfl | hc
        · decide
        · exact h.first c hc
  · exact (h.more l hl).1

theorem takeHeaders_lines {fs : List Field} (h : ∀ f ∈ fs, f.Fine) (r : List Txt) :
    takeHeaders (((fs.flatMap Field.lines).map (· ++ [13, 10])) ++ [13, 10] :: r) =
      ((fs.flatMap Field.lines).map (· ++ [13, 10]), r) := by
  have hh : ∀ l ∈ fs.flatMap Field.lines, isHeaderLine (l ++ [13, 10]) = true := by
    intro l hl
    obtain ⟨f, hf, hl⟩ := List.mem_flatMap.1 hl
    rcases List.mem_cons.1 hl with rfl | hl
    · rw [isHeaderLine, List.append_assoc, List.cons_append, name_drop (h f hf).name]
      simp
    · rw [isHeaderLine, startsBlank_append ((h f hf).more l hl).2, Bool.or_true]
  generalize fs.flatMap Field.lines = ls at hh
  induction ls with
  | nil => rfl
  | cons l ls ih =>
    rw [List.map_cons, List.cons_append, takeHeaders, if_pos (hh l (by simp)),
      ih (fun x hx => hh x (by simp [hx]))]

theorem parseFields_more {cur : List Txt} (hc : cur ≠ []) {ts : List Txt}
    (ht : ∀ l ∈ ts, startsBlank l = true) (r : List Txt) : ∀ (first : Bool), 
    ∃ b, parseFields first cur (ts ++ r) = parseFields (first && b) (cur ++ ts) r := by
  induction ts generalizing cur with
  | nil => intro first; exact ⟨true, by simp⟩
  | cons l ts ih =>
    intro first
    obtain ⟨b, hb⟩ := ih (cur := cur ++ [l]) (by simp) (fun x hx => ht x (by simp [hx])) false
    refine ⟨false, ?_⟩
    rw [List.cons_append, parseFields, if_pos (ht l (by simp)), if_neg hc, hb]
    simp

theorem parseFields_fields {fs : List Field} (h : ∀ f ∈ fs, f.Fine) : ∀ (first : Bool) (cur : List Txt),
    (first = true → cur = []) →
    parseFields first cur ((fs.flatMap Field.lines).map (· ++ [13, 10])) =
      ⟨none, (if cur = [] then [] else [sourceParse cur]) ++
        fs.map (fun f => sourceParse (f.lines.map (· ++ [13, 10]))), []⟩ := by
  induction fs with
  | nil => intro first cur _; simp [parseFields]
  | cons f fs ih =>
    intro first cur hf
    have hfine := h f (by simp)
    have e : ((f :: fs).flatMap Field.lines).map (· ++ [13, 10]) =
        (f.name ++ 58 :: (32 :: f.first ++ [13, 10])) ::
          (f.more.map (· ++ [13, 10]) ++ (fs.flatMap Field.lines).map (· ++ [13, 10])) := by
      simp [Field.lines]
    rw [e, parseFields, name_not_from hfine.name, (name_starts hfine.name _).1]
    simp only [Bool.false_eq_true, if_false, if_neg (name_starts hfine.name _).2]
    obtain ⟨b, hb⟩ := parseFields_more (cur := [f.name ++ 58 :: (32 :: f.first ++ [13, 10])]) (by simp)
      (ts := f.more.map (· ++ [13, 10])) (by
        intro l hl
        obtain ⟨l', hl', rfl⟩ := List.mem_map.1 hl
        exact startsBlank_append (hfine.more l' hl').2)
      ((fs.flatMap Field.lines).map (· ++ [13, 10])) false
    rw [hb, ih (fun x hx => h x (by simp [hx])) _ _ (by simp)]
    simp [Field.lines]

/-- The name and the value that are read. -/
theorem sourceParse_field {f : Field} (h : f.Fine) :
    (sourceParse (f.lines.map (· ++ [13, 10]))).1 = f.name ∧
    ∃ v, (sourceParse (f.lines.map (· ++ [13, 10]))).2 = .str v ∧
      words isSpace v = words isSpace f.first ++ f.more.flatMap (words isSpace) := by
  have h58 : ∀ c ∈ f.name, (c != 58) = true := by
    intro c hc
    have := h.name.2 c hc
    simp [this]
  have e : (f.lines.map (· ++ [13, 10])).headD [] = f.name ++ 58 :: (32 :: f.first ++ [13, 10]) := by
    simp [Field.lines]
  have et : (f.lines.map (· ++ [13, 10])).tail.flatten = f.more.flatMap (· ++ [13, 10]) := by
    simp [Field.lines, List.flatMap_def]
  unfold sourceParse
  simp only [e, et]
  refine ⟨?_, _, rfl, ?_⟩
  · rw [List.takeWhile_append_of_pos h58, List.takeWhile_cons_of_neg (by decide), List.append_nil]
  · rw [List.dropWhile_append_of_pos h58, List.dropWhile_cons_of_neg (by decide), List.drop_one, List.tail_cons]
    have hw : ∀ v : Txt, words isSpace (v.reverse.dropWhile (fun c => c == 13 || c == 10)).reverse =
        words isSpace v := by
      intro v
      have hs : v = (v.reverse.dropWhile (fun c => c == 13 || c == 10)).reverse ++
          (v.reverse.takeWhile (fun c => c == 13 || c == 10)).reverse := by
        rw [← List.reverse_append, List.takeWhile_append_dropWhile, List.reverse_reverse]
      conv_rhs => rw [hs]
      refine (words_back _ ?_).symm
      intro c hc
      have := List.all_eq_true.1 List.all_takeWhile c (List.mem_reverse.1 hc)
      simp only [Bool.or_eq_true, beq_iff_eq] at this
      rcases this with rfl | rfl <;> rfl
    rw [hw]
    have hd : ∀ a b : Txt, words isSpace (a.dropWhile isBlank ++ b) = words isSpace (a ++ b) := by
      intro a b
      conv_rhs => rw [← List.takeWhile_append_dropWhile (p := isBlank) (l := a), List.append_assoc]
      refine (words_front ?_ _).symm
      intro c hc
      exact blank_space (List.all_eq_true.1 List.all_takeWhile c hc)
    rw [hd]
    have hm : ∀ ls : List Txt, words isSpace (ls.flatMap (· ++ [13, 10])) = ls.flatMap (words isSpace) := by
      intro ls
      induction ls with
      | nil => rfl
      | cons l ls ih =>
        rw [List.flatMap_cons, List.flatMap_cons, List.append_assoc, List.cons_append, words_sep _ rfl,
          List.singleton_append, words_space_cons rfl, ih]
    rw [List.cons_append, List.cons_append, words_space_cons rfl, List.append_assoc, List.cons_append,
      words_sep _ rfl, List.singleton_append, words_space_cons rfl, hm]

/-- Reading a text that consists of such lines, an empty line and a body. -/
theorem read_fields {fs : List Field} (h : ∀ f ∈ fs, f.Fine) (body : Txt) :
    readMessage ((fs.flatMap Field.lines).flatMap (· ++ [13, 10]) ++ 13 :: 10 :: body) =
      ⟨none, fs.map (fun f => sourceParse (f.lines.map (· ++ [13, 10]))), body⟩ := by
  have hl : ∀ l ∈ fs.flatMap Field.lines, OneLine l := by
    intro l hl
    obtain ⟨f, hf, hl⟩ := List.mem_flatMap.1 hl
    exact (h f hf).oneLine l hl
  unfold readMessage
  rw [readLines_lines hl]
  have e : readLines (13 :: 10 :: body) = [13, 10] :: readLines body := by rw [readLines]
  rw [e, takeHeaders_lines h, parseFields_fields h _ _ (fun _ => rfl)]
  simp [readLines_flatten]

/-- The same with a `From ` line before it. -/
theorem read_fields_from {fs : List Field} (h : ∀ f ∈ fs, f.Fine) (body u : Txt) (hu : OneLine (txt "From " ++ u)) :
    readMessage (txt "From " ++ u ++ 13 :: 10 ::
        ((fs.flatMap Field.lines).flatMap (· ++ [13, 10]) ++ 13 :: 10 :: body)) =
      ⟨some (txt "From " ++ u), fs.map (fun f => sourceParse (f.lines.map (· ++ [13, 10]))), body⟩ := by
  have hl : ∀ l ∈ fs.flatMap Field.lines, OneLine l := by
    intro l hl
    obtain ⟨f, hf, hl⟩ := List.mem_flatMap.1 hl
    exact (h f hf).oneLine l hl
  unfold readMessage
  have e : readLines (13 :: 10 :: body) = [13, 10] :: readLines body := by rw [readLines]
  have hp : (txt "From ").isPrefixOf (txt "From " ++ u ++ [13, 10]) = true := by
    rw [List.isPrefixOf_iff_prefix, List.append_assoc]
    exact List.prefix_append _ _
  have ht : takeHeaders ((txt "From " ++ u ++ [13, 10]) ::
      ((fs.flatMap Field.lines).map (· ++ [13, 10]) ++ [13, 10] :: readLines body)) =
      ((txt "From " ++ u ++ [13, 10]) :: (fs.flatMap Field.lines).map (· ++ [13, 10]), readLines body) := by
    rw [takeHeaders, if_pos (by rw [isHeaderLine, hp]; rfl), takeHeaders_lines h]
  have hb : startsBlank (txt "From " ++ u ++ [13, 10]) = false := rfl
  have hc : cutEnd (txt "From " ++ u ++ [13, 10]) = txt "From " ++ u := by
    simp [cutEnd]
  rw [readLines_oneLine hu, readLines_lines hl, e, ht, parseFields, hb, hp]
  simp only [Bool.false_eq_true, if_false, if_true]
  rw [parseFields_fields h _ _ (fun h => by cases h), hc]
  simp [readLines_flatten]

/-! ### Writing one header -/

theorem loose_cons {c : Nat} (h : c ≠ 13 ∧ c ≠ 10) (r : Txt) : loose (c :: r) = loose r := by
  rw [loose]
  · intro d s hc; exact absurd hc h.1
  · intro d s hc; exact absurd hc h.1
  · intro d s hc; exact absurd hc h.2

theorem loose_oneLine {l : Txt} (h : OneLine l) (r : Txt) : loose (l ++ r) = loose r := by
  induction l with
  | nil => rfl
  | cons c l ih =>
    rw [List.cons_append, loose_cons (h c (by simp)), ih (fun x hx => h x (by simp [hx]))]

theorem loose_lines {ls : List Txt} (h : ∀ l ∈ ls, OneLine l ∧ l ≠ []) :
    loose (ls.flatMap (10 :: ·)) = false ↔ ∀ l ∈ ls, startsBlank l = true := by
  induction ls with
  | nil => simp [loose]
  | cons l ls ih =>
    have ih := ih (fun x hx => h x (by simp [hx]))
    obtain ⟨ho, hne⟩ := h l (by simp)
    cases l with
    | nil => exact absurd rfl hne
    | cons d l =>
      have e : loose (((d :: l) :: ls).flatMap (10 :: ·)) = (!isBlank d || loose (ls.flatMap (10 :: ·))) := by
        rw [List.flatMap_cons, List.cons_append, List.cons_append, loose]
        congr 1
        have := loose_oneLine ho (ls.flatMap (10 :: ·))
        rw [List.cons_append] at this
        exact this
      rw [e, Bool.or_eq_false_iff, ih, List.forall_mem_cons]
      have : startsBlank (d :: l) = isBlank d := rfl
      rw [this]
      cases isBlank d <;> simp

theorem embedded_oneLine {l : Txt} (h : OneLine l) (r : Txt) : embedded (l ++ r) = embedded r := by
  induction l with
  | nil => rfl
  | cons c l ih =>
    rw [List.cons_append, embedded, ih (fun x hx => h x (by simp [hx]))]
    have := (h c (by simp)).2
    simp [this]

theorem embedded_lines {ls : List Txt} (h : ∀ l ∈ ls, OneLine l ∧ startsBlank l = true) :
    embedded (ls.flatMap (10 :: ·)) = false := by
  induction ls with
  | nil => rfl
  | cons l ls ih =>
    obtain ⟨ho, hb⟩ := h l (by simp)
    cases l with
    | nil => cases hb
    | cons d l =>
      have hb' : isBlank d = true := hb
      rw [List.flatMap_cons, List.cons_append, embedded, embedded_oneLine ho,
        ih (fun x hx => h x (by simp [hx]))]
      simp [hb']

theorem joinLf_flat (ls : List Txt) : joinLf ls = ls.headD [] ++ ls.tail.flatMap (10 :: ·) := by
  induction ls with
  | nil => rfl
  | cons a ls ih =>
    cases ls with
    | nil => simp [joinLf]
    | cons b ls => rw [joinLf, ih]; simp

theorem startsBlank_splitLines {d : Nat} (h : isBlank d = true) (b : Txt) :
    ∃ l ls, splitLines (d :: b) = l :: ls ∧ startsBlank l = true := by
  have hd : d = 32 ∨ d = 9 := by simpa [isBlank] using h
  rw [splitLines_cons (by intro s hs; have := (List.cons.inj hs).1; omega),
    if_neg (by rcases hd with rfl | rfl <;> decide)]
  cases splitLines b with
  | nil => exact ⟨_, _, rfl, h⟩
  | cons l ls => exact ⟨_, _, rfl, h⟩

theorem Continued.suffix {a b : Txt} (h : Continued (a ++ b)) : Continued b := by
  intro x c d y hb
  exact h (a ++ x) c d y (by rw [hb, List.append_assoc])

theorem continued_lines (v : Txt) : Ascii v → Continued v → ∀ l ∈ (splitLines v).tail, startsBlank l = true := by
  have all : ∀ (c : Nat) (r : Txt), Continued (c :: r) → Ends c → (∀ s, c :: r ≠ 13 :: 10 :: s) →
      (∀ l ∈ (splitLines r).tail, startsBlank l = true) → ∀ l ∈ splitLines r, startsBlank l = true := by
    intro c r h hc hn ht
    cases r with
    | nil => intro l hl; cases hl
    | cons d b =>
      have hd : isBlank d = true := by
        rcases h [] c d b rfl hc with h | h | ⟨h1, h2⟩
        · rw [h]; rfl
        · rw [h]; rfl
        · exact absurd (by rw [h1, h2]) (hn b)
      obtain ⟨l, ls, e, hl⟩ := startsBlank_splitLines hd b
      rw [e] at ht ⊢
      intro k hk
      rcases List.mem_cons.1 hk with rfl | hk
      · exact hl
      · exact ht k hk
  induction v using crlf_induction with
  | h0 => intro _ _ l hl; cases hl
  | h1 r ih =>
    intro ha h
    rw [splitLines]
    exact all 10 r (Continued.suffix (a := [13]) h) (.inl rfl) (by intro s hs; cases hs)
      (ih (fun c hc => ha c (by simp [hc])) (Continued.suffix (a := [13, 10]) h))
  | h2 c r hn ih =>
    intro ha h
    have ih := ih (fun c hc => ha c (by simp [hc])) (Continued.suffix (a := [c]) h)
    rw [splitLines_cons hn]
    split
    · rename_i hc
      refine all c r h ?_ hn ih
      have := ha c (by simp)
      simp only [isLineBreak, Bool.or_eq_true, Bool.and_eq_true, decide_eq_true_eq, beq_iff_eq] at hc
      unfold Ends
      omega
    · cases hr : splitLines r with
      | nil => simp
      | cons l ls => rw [hr] at ih; simpa using ih

/-- The lines of a header. -/
def fieldOf (k : Nat) (n v : Txt) : Field := ⟨n, (encodedLines k n v).headD [], (encodedLines k n v).tail⟩

theorem fieldOf_lines (k : Nat) (n v : Txt) : OneLine (fieldOf k n v).first ∧
    (∀ l ∈ (fieldOf k n v).more, OneLine l ∧ l ≠ []) ∧
    ((∀ l ∈ (splitLines v).tail, startsBlank l = true) → ∀ l ∈ (fieldOf k n v).more, startsBlank l = true) := by
  obtain ⟨h1, h2, h3⟩ := encoded_lines (Q := fun c => isLineBreak c = false) rfl k n v
    (fun l hl c hc => (splitLines_chars v l hl c hc).2)
  have h4 : ∀ l ∈ encodedLines k n v, OneLine l := by
    intro l hl c hc
    have := h1 l hl c hc
    constructor <;> rintro rfl <;> cases this
  refine ⟨?_, fun l hl => ⟨h4 l (List.mem_of_mem_tail hl), h2 l hl⟩, h3⟩
  show OneLine ((encodedLines k n v).headD [])
  cases hL : encodedLines k n v with
  | nil => intro c hc; cases hc
  | cons l ls => exact h4 l (by rw [hL]; simp)

theorem fieldOf_words (k : Nat) (n v : Txt) : words isSpace (fieldOf k n v).first ++
    (fieldOf k n v).more.flatMap (words isSpace) = words isSpace v := by
  rw [← encoded_words k n v]
  show words isSpace ((encodedLines k n v).headD []) ++ (encodedLines k n v).tail.flatMap _ = _
  cases encodedLines k n v with
  | nil => rfl
  | cons l ls => rfl

theorem splitLines_one {v : Txt} (h : ∀ c ∈ v, isLineBreak c = false) :
    splitLines v = if v = [] then [] else [v] := by
  induction v with
  | nil => rfl
  | cons c r ih =>
    have hc := h c (by simp)
    rw [splitLines_cons (by intro s hs; have := (List.cons.inj hs).1; subst this; cases hc), hc,
      ih (fun x hx => h x (by simp [hx]))]
    cases r <;> rfl

theorem foldl_append_short (max : Nat) (ps : List (Txt × Txt)) : ∀ s : Folding,
    s.init + (lineText (s.cur ++ ps)).length ≤ max →
    ps.foldl (Folding.append max) s = { s with cur := s.cur ++ ps } := by
  induction ps with
  | nil => intro s _; simp
  | cons p ps ih =>
    intro s h
    have e : s.append max p = { s with cur := s.cur ++ [p] } := by
      have : s.cur ++ p :: ps = (s.cur ++ [p]) ++ ps := by simp
      rw [this, lineText_append, List.length_append] at h
      unfold Folding.append
      simp only
      rw [if_pos (by omega)]
    rw [List.foldl_cons, e, ih]
    · simp
    · simpa using h

theorem encodedLines_one {k : Nat} {n v : Txt} (ha : Ascii v) (h1 : ∀ c ∈ v, ¬ Ends c)
    (h3 : n.length + 2 + v.length ≤ k) : encodedLines k n v = [v] := by
  have hb : ∀ c ∈ v, isLineBreak c = false := by
    intro c hc
    have h4 := ha c hc
    have h5 := h1 c hc
    unfold Ends at h5
    cases hx : isLineBreak c with
    | false => rfl
    | true =>
      simp only [isLineBreak, Bool.or_eq_true, Bool.and_eq_true, decide_eq_true_eq, beq_iff_eq] at hx
      omega
  have e0 : (splitLines v).headD [] = v ∧ (splitLines v).tail = [] ∧ ¬ 1 < (splitLines v).length := by
    rw [splitLines_one hb]
    cases v <;> simp
  have e1 : Folding.feed k ⟨[], [], n.length + 2⟩ v = ⟨[], chunks v, n.length + 2⟩ := by
    rw [Folding.feed, foldl_append_short]
    · rfl
    · simp only [List.nil_append, (chunks_spec v).1]
      omega
  unfold encodedLines
  rw [e0.1, e0.2.1, e1]
  simp only [if_neg e0.2.2, List.foldl_nil, Folding.newline, List.getLast?_concat, if_true, List.dropLast_concat,
    (chunks_spec v).1]
  rw [if_neg (by omega), if_neg (by rintro ⟨h, -⟩; omega)]
  rfl

theorem fieldOf_short {k : Nat} (hk : 78 ≤ k) {n v : Txt} (ha : Ascii v) (h : Short n v) :
    (fieldOf k n v).first = v ∧ (fieldOf k n v).more = [] := by
  have e2 : encodedLines k n v = [v] := encodedLines_one ha h.1 (by have := h.2.2; omega)
  constructor
  · show (encodedLines k n v).headD [] = v
    rw [e2]; rfl
  · show (encodedLines k n v).tail = []
    rw [e2]; rfl

theorem sourceParse_short {n v : Txt} (hf : Field.Fine ⟨n, v, []⟩) (h : Short n v) :
    (sourceParse ((Field.lines ⟨n, v, []⟩).map (· ++ [13, 10]))).2 = .str v := by
  have h58 : ∀ c ∈ n, (c != 58) = true := by
    intro c hc
    have := hf.name.2 c hc
    simp [this]
  have e : ((Field.lines ⟨n, v, []⟩).map (· ++ [13, 10])).headD [] = n ++ 58 :: (32 :: v ++ [13, 10]) := by
    simp [Field.lines]
  have et : ((Field.lines ⟨n, v, []⟩).map (· ++ [13, 10])).tail.flatten = [] := by
    simp [Field.lines]
  have hd : (32 :: v ++ [13, 10]).dropWhile isBlank = v ++ [13, 10] := by
    rw [List.cons_append, List.dropWhile_cons_of_pos (by rfl)]
    cases v with
    | nil => rfl
    | cons c r =>
      have := h.2.1 c r rfl
      rw [List.cons_append, List.dropWhile_cons_of_neg (by simp [isBlank, this])]
  have hr : (v ++ [13, 10]).reverse.dropWhile (fun c => c == 13 || c == 10) = v.reverse := by
    rw [List.reverse_append]
    show ([10, 13] ++ v.reverse).dropWhile _ = _
    rw [List.dropWhile_append_of_pos (by simp)]
    cases hv : v.reverse with
    | nil => rfl
    | cons c r =>
      have hc := hf.first c (List.mem_reverse.1 (by rw [hv]; simp))
      rw [List.dropWhile_cons_of_neg (by simp [hc])]
  unfold sourceParse
  simp only [e, et]
  rw [List.dropWhile_append_of_pos h58, List.dropWhile_cons_of_neg (by decide), List.drop_one, List.tail_cons,
    hd, List.append_nil, hr, List.reverse_reverse]

theorem field_text (f : Field) : f.lines.flatMap (· ++ [10]) =
    f.name ++ txt ": " ++ (f.first ++ f.more.flatMap (10 :: ·)) ++ [10] := by
  have : ∀ (ls : List Txt) (x : Txt), (x :: ls).flatMap (· ++ [10]) = x ++ ls.flatMap (10 :: ·) ++ [10] := by
    intro ls
    induction ls with
    | nil => intro x; simp
    | cons l ls ih => intro x; rw [List.flatMap_cons, ih]; simp
  rw [Field.lines, this]
  simp [txt]

theorem ascii_any {v : Txt} (h : Ascii v) : v.any (fun c => decide (128 ≤ c)) = false := by
  rw [List.any_eq_false]
  intro c hc
  have := h c hc
  simp; omega

theorem nameLine {n : Txt} (hn : FieldName n) {x : Txt} (hx : OneLine x) : OneLine (n ++ txt ": " ++ x) := by
  intro c hc
  rcases List.mem_append.1 hc with hc | hc
  · rcases List.mem_append.1 hc with hc | hc
    · have := hn.2 c hc
      omega
    · have : c = 58 ∨ c = 32 := by simpa [txt] using hc
      omega
  · exact hx c hc

theorem checked_iff (P : Printer) {f : Field} (hn : FieldName f.name) (h1 : OneLine f.first)
    (h2 : ∀ l ∈ f.more, OneLine l ∧ l ≠ []) (t : Txt) :
    P.checked f.name (f.first ++ f.more.flatMap (10 :: ·)) = .ok t ↔
      (P.verify = true → ∀ l ∈ f.more, startsBlank l = true) ∧ t = f.lines.flatMap (· ++ [10]) := by
  rw [Printer.checked, field_text, ← List.append_assoc, loose_oneLine (nameLine hn h1)]
  cases hv : P.verify with
  | false =>
    simp only [Bool.false_and, Bool.false_eq_true, if_false, false_implies, true_and]
    simp [eq_comm]
  | true =>
    rw [Bool.true_and]
    by_cases hl : loose (f.more.flatMap (10 :: ·)) = false
    · simp only [hl, Bool.false_eq_true, if_false, true_implies]
      rw [loose_lines h2] at hl
      simp only [Except.ok.injEq]
      constructor
      · intro h; exact ⟨hl, by rw [← h]⟩
      · intro h; rw [h.2]
    · have hl' : loose (f.more.flatMap (10 :: ·)) = true := by simpa using hl
      rw [loose_lines h2] at hl
      simp [hl', hl]

/-- The value can be written. -/
def Fits (P : Printer) (s : Stored) : Prop :=
  s = .none ∨ ∃ v, s = .str v ∧ Ascii v ∧ (Continued v ∨ P.verify = true)

/-- The lines made from a value. -/
def Holds (s : Stored) (f : Field) : Prop :=
  match s with
  | .none => words isSpace f.first ++ f.more.flatMap (words isSpace) = []
  | .str v => words isSpace f.first ++ f.more.flatMap (words isSpace) = words isSpace v ∧
      (Ascii v → Short f.name v → f.first = v ∧ f.more = [])
  | .header _ => False

theorem _root_.Sb.Mail.Printer.max_le (P : Printer) : 78 ≤ P.max := by
  unfold Printer.max; split <;> omega

theorem fold_field (P : Printer) {n : Txt} {s : Stored} {t : Txt} (hn : FieldName n) (hs : Fits P s)
    (h : P.fold n s = .ok t) : ∃ f : Field, f.Fine ∧ f.name = n ∧ t = f.lines.flatMap (· ++ [10]) ∧ Holds s f := by
  rcases hs with rfl | ⟨v, rfl, ha, hv⟩
  · refine ⟨⟨n, [], []⟩, ⟨hn, (by intro c hc; cases hc), (by simp)⟩, rfl, ?_, (by simp [Holds]; rfl)⟩
    have := (checked_iff P (f := ⟨n, [], []⟩) hn (by intro c hc; cases hc) (by simp) t).1 (by simpa [Printer.fold] using h)
    exact this.2
  · obtain ⟨h1, h2, h3⟩ := fieldOf_lines P.max n v
    rw [Printer.fold, ascii_any ha] at h
    simp only [Bool.false_eq_true, if_false] at h
    split at h
    · cases h
    · rw [joinLf_flat] at h
      obtain ⟨h4, h5⟩ := (checked_iff P (f := fieldOf P.max n v) hn h1 h2 t).1 h
      refine ⟨fieldOf P.max n v, ⟨hn, h1, ?_⟩, rfl, h5, fieldOf_words P.max n v, fieldOf_short P.max_le⟩
      intro l hl
      refine ⟨(h2 l hl).1, ?_⟩
      rcases hv with hv | hv
      · exact h3 (continued_lines v ha hv) l hl
      · exact h4 hv l hl

theorem fold_works (P : Printer) {n : Txt} {s : Stored} (hn : FieldName n)
    (hs : s = .none ∨ ∃ v, s = .str v ∧ Ascii v ∧ Continued v) : ∃ t, P.fold n s = .ok t := by
  rcases hs with rfl | ⟨v, rfl, ha, hv⟩
  · refine ⟨n ++ txt ": " ++ [10], ?_⟩
    have := (checked_iff P (f := ⟨n, [], []⟩) hn (by intro c hc; cases hc) (by simp) (n ++ txt ": " ++ [10])).2
      ⟨by simp, by simp [Field.lines, txt]⟩
    simpa [Printer.fold] using this
  · obtain ⟨h1, h2, h3⟩ := fieldOf_lines P.max n v
    have h4 := h3 (continued_lines v ha hv)
    refine ⟨(fieldOf P.max n v).lines.flatMap (· ++ [10]), ?_⟩
    have := (checked_iff P (f := fieldOf P.max n v) hn h1 h2 _).2 ⟨fun _ => h4, rfl⟩
    rw [Printer.fold, ascii_any ha]
    simp only [Bool.false_eq_true, if_false]
    rw [joinLf_flat]
    have he : embedded ((encodedLines P.max n v).headD [] ++ (encodedLines P.max n v).tail.flatMap (10 :: ·)) = false := by
      rw [embedded_oneLine (l := (encodedLines P.max n v).headD []) h1]
      exact embedded_lines (fun l hl => ⟨(h2 l hl).1, h4 l hl⟩)
    rw [if_neg (by rw [he]; simp)]
    exact this

/-! ### Writing all headers -/

theorem foldAll_works (P : Printer) (hs : Headers) (h : ∀ x ∈ hs, ∃ t, P.fold x.1 x.2 = .ok t) :
    ∃ ts, P.foldAll hs = .ok ts := by
  induction hs with
  | nil => exact ⟨_, rfl⟩
  | cons x hs ih =>
    obtain ⟨n, s⟩ := x
    obtain ⟨t, ht⟩ := h (n, s) (by simp)
    obtain ⟨ts, hts⟩ := ih (fun y hy => h y (by simp [hy]))
    exact ⟨t :: ts, by rw [Printer.foldAll, ht, hts]⟩

theorem foldAll_fields (P : Printer) : ∀ (hs : Headers) (ts : List Txt),
    (∀ x ∈ hs, FieldName x.1 ∧ Fits P x.2) → P.foldAll hs = .ok ts →
    ∃ fs : List Field, (∀ f ∈ fs, f.Fine) ∧ ts.flatten = (fs.flatMap Field.lines).flatMap (· ++ [10]) ∧
      List.Forall₂ (fun x f => f.name = x.1 ∧ Holds x.2 f ∧ ∀ v, x.2 = .str v → Ascii v) hs fs := by
  intro hs
  induction hs with
  | nil =>
    intro ts _ h
    rw [Printer.foldAll] at h
    cases h
    exact ⟨[], by simp, rfl, .nil⟩
  | cons x hs ih =>
    obtain ⟨n, s⟩ := x
    intro ts hx h
    rw [Printer.foldAll] at h
    split at h
    · cases h
    · rename_i t ht
      split at h
      · cases h
      · rename_i ts' hts
        cases h
        obtain ⟨fs, h1, h2, h3⟩ := ih ts' (fun y hy => hx y (by simp [hy])) hts
        obtain ⟨f, f1, f2, f3, f4⟩ := fold_field P (hx (n, s) (by simp)).1 (hx (n, s) (by simp)).2 ht
        refine ⟨f :: fs, ?_, ?_, .cons ⟨f2, f4, ?_⟩ h3⟩
        · intro g hg
          rcases List.mem_cons.1 hg with rfl | hg
          · exact f1
          · exact h1 g hg
        · rw [List.flatten_cons, f3, h2]; simp
        · rintro v rfl
          rcases (hx (n, .str v) (by simp)).2 with h | ⟨v', h, ha, -⟩
          · cases h
          · cases h; exact ha

theorem fields_same {hs : Headers} {fs : List Field} (hf : ∀ f ∈ fs, f.Fine)
    (h : List.Forall₂ (fun x f => f.name = x.1 ∧ Holds x.2 f ∧ ∀ v, x.2 = .str v → Ascii v) hs fs) :
    SameHeaders hs (fs.map (fun f => sourceParse (f.lines.map (· ++ [13, 10])))) := by
  induction h with
  | nil => exact .nil
  | @cons x f hs fs hx _ ih =>
    refine .cons ?_ (ih (fun g hg => hf g (by simp [hg])))
    obtain ⟨h1, v, h2, h3⟩ := sourceParse_field (hf f (by simp))
    refine ⟨by rw [h1, hx.1], ?_⟩
    obtain ⟨h4, h5, h6⟩ := hx
    obtain ⟨n, s⟩ := x
    cases s with
    | none => rw [h2]; exact ⟨.none (by rw [h3]; exact h5), by rintro v ⟨⟩⟩
    | str v' =>
      refine ⟨by rw [h2]; exact .str (by rw [h3]; exact h5.1), ?_⟩
      rintro _ ⟨⟩ hv
      obtain ⟨h7, h8⟩ := h5.2 (h6 v' rfl) (by rw [h4]; exact hv)
      obtain ⟨n', first, more⟩ := f
      simp only at h7 h8
      subst h7 h8
      exact sourceParse_short (hf _ (by simp)) (by rw [show n' = n from h4]; exact hv)
    | header t => exact h5.elim

theorem bodyOf_folded (mg wide : Bool) (ct : Txt) (f w : List Txt) (u : Txt) (p e : Option Txt) (b : Txt)
    (pl : Cargo Doc) :
    bodyOf mg wide (.doc ct f w u p e b pl) = bodyOf mg wide (.doc ct [] w u p e b pl) := by
  rw [bodyOf.eq_def, bodyOf.eq_def]

/-- What is read of a message that was written. -/
theorem asString_read (P : Printer) (uf mg : Bool) (hs : Headers) (ct : Txt) (w : List Txt) (u : Txt)
    (p e : Option Txt) (b : Txt) (pl : Cargo Doc) (ts : List Txt)
    (hP : Parsed (fun ct => ¬ NamesStatus ct) (.doc ct [] w u p e b pl))
    (hu : uf = true → OneLine u ∧ ∃ x, u = txt "From " ++ x)
    (hh : ∀ x ∈ hs, FieldName x.1 ∧ Fits P x.2) (ht : P.foldAll hs = .ok ts) :
    ∃ s, P.asString uf mg hs (fun f => .doc ct f w u p e b pl) = .ok s ∧
      (readMessage s).unixfrom = (if uf then some u else none) ∧
      SameHeaders hs (readMessage s).headers ∧
      asString false mg (.doc ct [] w u p e b pl) = .ok (13 :: 10 :: (readMessage s).body) := by
  obtain ⟨fs, f1, f2, f3⟩ := foldAll_fields P hs ts hh ht
  have hl : ∀ l ∈ fs.flatMap Field.lines, OneLine l := by
    intro l hl
    obtain ⟨f, hf, hl⟩ := List.mem_flatMap.1 hl
    exact (f1 f hf).oneLine l hl
  obtain ⟨t, h0⟩ := parsed_flatten hP mg false
  have hb : ∃ body, bodyOf mg false (.doc ct [] w u p e b pl) = .ok body := by
    rw [flatten] at h0
    split at h0
    · exact ⟨_, by assumption⟩
    · cases h0
  obtain ⟨body, hb⟩ := hb
  have e1 : flatten mg false (.doc ct ts w u p e b pl) = .ok (ts.flatten ++ 10 :: body) := by
    rw [flatten, bodyOf_folded, hb]; rfl
  have e0 : flatten mg false (.doc ct [] w u p e b pl) = .ok (10 :: body) := by
    rw [flatten, hb]; rfl
  have b0 : asString false mg (.doc ct [] w u p e b pl) = .ok (13 :: 10 :: forceCrlf body) := by
    rw [asString.eq_def]
    simp only [generate, e0]
    have := crlf_oneLine (l := []) (by intro c hc; cases hc) body
    simpa using this
  cases uf with
  | false =>
    refine ⟨(fs.flatMap Field.lines).flatMap (· ++ [13, 10]) ++ 13 :: 10 :: forceCrlf body, ?_, ?_⟩
    · rw [Printer.asString, ht]
      simp only
      rw [asString.eq_def]
      simp only [generate, e1]
      rw [f2]
      simp only [Bool.false_eq_true, if_false, List.nil_append]
      rw [crlf_lines hl, ← List.nil_append (10 :: body), crlf_oneLine (by intro c hc; cases hc)]
      rfl
    · rw [read_fields f1]
      exact ⟨rfl, fields_same f1 f3, b0⟩
  | true =>
    obtain ⟨hu1, x, rfl⟩ := hu rfl
    refine ⟨txt "From " ++ x ++ 13 :: 10 ::
      ((fs.flatMap Field.lines).flatMap (· ++ [13, 10]) ++ 13 :: 10 :: forceCrlf body), ?_, ?_⟩
    · rw [Printer.asString, ht]
      simp only
      rw [asString.eq_def]
      simp only [generate, e1]
      rw [f2]
      simp only [if_true]
      rw [List.append_assoc, List.singleton_append, crlf_oneLine hu1, crlf_lines hl,
        ← List.nil_append (10 :: body), crlf_oneLine (by intro c hc; cases hc)]
      rfl
    · rw [read_fields_from f1 _ _ hu1]
      exact ⟨rfl, fields_same f1 f3, b0⟩

/-! ### What is read can be written -/

/-- CR and LF only at the end. -/
def LineEnd (l : Txt) : Prop :=
  ∀ a c d b, l = a ++ c :: d :: b → c = 13 ∨ c = 10 → c = 13 ∧ d = 10 ∧ b = []

theorem LineEnd.suffix {a b : Txt} (h : LineEnd (a ++ b)) : LineEnd b := by
  intro x c d y hb
  exact h (a ++ x) c d y (by rw [hb, List.append_assoc])

theorem readLines_end (t : Txt) : ∀ l ∈ readLines t, LineEnd l := by
  induction t using crlf_induction with
  | h0 => intro l hl; cases hl
  | h1 r ih =>
    rw [readLines]
    intro l hl
    rcases List.mem_cons.1 hl with rfl | hl
    · intro a c d b h _
      cases a with
      | nil =>
        simp at h
        exact ⟨h.1.symm, h.2.1.symm, h.2.2⟩
      | cons x a =>
        cases a with
        | nil => simp at h
        | cons y a => simp at h
    · exact ih l hl
  | h2 c r h ih =>
    rw [readLines_cons h]
    have one : ∀ x : Nat, LineEnd [x] := by
      intro x a c d b h
      cases a with
      | nil => simp at h
      | cons y a => simp at h
    split
    · intro l hl
      rcases List.mem_cons.1 hl with rfl | hl
      · exact one c
      · exact ih l hl
    · rename_i hc
      split
      · intro l hl
        rw [List.mem_singleton.1 hl]
        exact one c
      · rename_i k ks hk
        rw [hk] at ih
        intro l hl
        rcases List.mem_cons.1 hl with rfl | hl
        · intro a x d b ha hx
          cases a with
          | nil =>
            have := (List.cons.inj ha).1
            exact absurd (this ▸ hx) hc
          | cons y a => exact ih k (by simp) a x d b (List.cons.inj ha).2 hx
        · exact ih l (by simp [hl])

theorem continued_append {l r : Txt} (hl : LineEnd l) (hr : Continued r)
    (hc : ∀ c ∈ l, Ends c → c = 13 ∨ c = 10) (hb : r = [] ∨ startsBlank r = true) : Continued (l ++ r) := by
  intro a c d b h he
  have h0 := List.append_eq_append_iff.1 h
  clear h
  rcases h0 with ⟨a', rfl, h⟩ | ⟨c', rfl, h⟩
  · exact hr a' c d b h he
  · cases c' with
    | nil => exact hr [] c d b (by simpa using h.symm) he
    | cons x c' =>
      simp only [List.cons_append, List.cons.injEq] at h
      obtain ⟨rfl, h⟩ := h
      have hx := hc c (by simp) he
      cases c' with
      | nil =>
        rw [List.nil_append] at h
        subst h
        rcases hb with hb | hb
        · cases hb
        · have : isBlank d = true := hb
          simp only [isBlank, Bool.or_eq_true, beq_iff_eq] at this
          rcases this with h | h
          · exact .inl h
          · exact .inr (.inl h)
      | cons y c' =>
        simp only [List.cons_append, List.cons.injEq] at h
        obtain ⟨rfl, h⟩ := h
        have := hl a c d c' rfl hx
        exact .inr (.inr ⟨this.1, this.2.1⟩)

theorem continued_flatten {ls : List Txt} (h : ∀ l ∈ ls, LineEnd l ∧ startsBlank l = true ∧
    ∀ c ∈ l, Ends c → c = 13 ∨ c = 10) : Continued ls.flatten ∧ (ls.flatten = [] ∨ startsBlank ls.flatten = true) := by
  induction ls with
  | nil => exact ⟨by intro a c d b h; simp at h, .inl rfl⟩
  | cons l ls ih =>
    obtain ⟨h1, h2, h3⟩ := h l (by simp)
    obtain ⟨i1, i2⟩ := ih (fun x hx => h x (by simp [hx]))
    exact ⟨continued_append h1 i1 h3 i2, .inr (startsBlank_append h2)⟩

theorem Continued.prefix {a b : Txt} (h : Continued (a ++ b)) : Continued a := by
  intro x c d y ha
  exact h x c d (y ++ b) (by rw [ha]; simp)

/-- A header as it can be written. -/
def Readable (Q : Nat → Prop) (x : Txt × Stored) : Prop :=
  FieldName x.1 ∧ ∃ v, x.2 = .str v ∧ Continued v ∧ ∀ c ∈ v, Q c

/-- A line that begins a header. -/
def Begins (l : Txt) : Prop := ∃ n r, FieldName n ∧ l = n ++ 58 :: r

theorem begins_of {l : Txt} (h : isHeaderLine l = true) (hb : startsBlank l = false)
    (hf : (txt "From ").isPrefixOf l = false) (hc : l.head? ≠ some 58) : Begins l := by
  rw [isHeaderLine, hb, hf, Bool.false_or, Bool.or_false, beq_iff_eq] at h
  have e := List.takeWhile_append_dropWhile (p := isFieldChar) (l := l)
  cases hd : l.dropWhile isFieldChar with
  | nil => rw [hd] at h; cases h
  | cons x r =>
    rw [hd] at h e
    simp only [List.head?_cons, Option.some.injEq] at h
    subst h
    refine ⟨_, r, ⟨?_, ?_⟩, e.symm⟩
    · intro h0
      rw [h0] at e
      rw [← e] at hc
      exact hc rfl
    · intro c hcm
      have := List.all_eq_true.1 List.all_takeWhile c hcm
      simpa [isFieldChar, and_assoc] using this

theorem takeHeaders_prefix (ls : List Txt) : (takeHeaders ls).1 <+: ls ∧
    ∀ l ∈ (takeHeaders ls).1, isHeaderLine l = true := by
  induction ls with
  | nil => exact ⟨List.prefix_refl _, by simp [takeHeaders]⟩
  | cons l ls ih =>
    rw [takeHeaders]
    split
    · rename_i h
      refine ⟨List.cons_prefix_cons.2 ⟨rfl, ih.1⟩, ?_⟩
      intro k hk
      rcases List.mem_cons.1 hk with rfl | hk
      · exact h
      · exact ih.2 k hk
    · split <;> exact ⟨List.nil_prefix, by simp⟩

/-- The lines of a header that is being read. -/
def Reading1 (Q : Nat → Prop) (cur : List Txt) : Prop :=
  cur = [] ∨ ∃ f ts, cur = f :: ts ∧ Begins f ∧ LineEnd f ∧ (∀ c ∈ f, Q c) ∧
    ∀ l ∈ ts, LineEnd l ∧ startsBlank l = true ∧ ∀ c ∈ l, Q c

theorem sourceParse_readable {Q : Nat → Prop} (hQ : ∀ c, Q c → Ends c → c = 13 ∨ c = 10) {cur : List Txt}
    (h : Reading1 Q cur) (hne : cur ≠ []) : Readable Q (sourceParse cur) := by
  rcases h with h | ⟨f, ts, rfl, ⟨n, r, hn, rfl⟩, hl, hq, hts⟩
  · exact absurd h hne
  · have h58 : ∀ c ∈ n, (c != 58) = true := by
      intro c hc
      have := hn.2 c hc
      simp [this]
    have h1 : (sourceParse ((n ++ 58 :: r) :: ts)).1 = n := by
      simp only [sourceParse, List.headD_cons]
      rw [List.takeWhile_append_of_pos h58, List.takeWhile_cons_of_neg (by decide), List.append_nil]
    refine ⟨by rw [h1]; exact hn, _, rfl, ?_, ?_⟩
    all_goals
      simp only [List.headD_cons, List.tail_cons]
      rw [List.dropWhile_append_of_pos h58, List.dropWhile_cons_of_neg (by decide), List.drop_one, List.tail_cons]
      have hr : ∃ x, r = x ++ r.dropWhile isBlank := ⟨_, (List.takeWhile_append_dropWhile).symm⟩
      have hd : ∀ v : Txt, ∃ y, v = (v.reverse.dropWhile (fun c => c == 13 || c == 10)).reverse ++ y := by
        intro v
        refine ⟨(v.reverse.takeWhile (fun c => c == 13 || c == 10)).reverse, ?_⟩
        rw [← List.reverse_append, List.takeWhile_append_dropWhile, List.reverse_reverse]
      obtain ⟨x, hx⟩ := hr
      obtain ⟨y, hy⟩ := hd (r.dropWhile isBlank ++ ts.flatten)
    · refine Continued.prefix (b := y) ?_
      rw [← hy]
      have hl' : LineEnd (r.dropWhile isBlank) := by
        rw [hx] at hl
        refine LineEnd.suffix (a := n ++ 58 :: x) ?_
        rw [List.append_assoc, List.cons_append]
        exact hl
      obtain ⟨c1, c2⟩ := continued_flatten (ls := ts) (fun l hl => ⟨(hts l hl).1, (hts l hl).2.1,
        fun c hc => hQ c ((hts l hl).2.2 c hc)⟩)
      refine continued_append hl' c1 ?_ c2
      intro c hc
      refine hQ c (hq c ?_)
      rw [hx]
      simp [hc]
    · intro c hc
      have : c ∈ r.dropWhile isBlank ++ ts.flatten := by rw [hy]; exact List.mem_append_left _ hc
      rcases List.mem_append.1 this with hc | hc
      · refine hq c ?_
        rw [hx]
        simp [hc]
      · obtain ⟨l, hl, hc⟩ := List.mem_flatten.1 hc
        exact (hts l hl).2.2 c hc

theorem parseFields_readable {Q : Nat → Prop} (hQ : ∀ c, Q c → Ends c → c = 13 ∨ c = 10) (ls : List Txt) :
    ∀ (first : Bool) (cur : List Txt), Reading1 Q cur →
    (∀ l ∈ ls, isHeaderLine l = true ∧ LineEnd l ∧ ∀ c ∈ l, Q c) →
    ∀ x ∈ (parseFields first cur ls).headers, Readable Q x := by
  have key : ∀ (cur : List Txt), Reading1 Q cur → ∀ x ∈ (if cur = [] then [] else [sourceParse cur]), Readable Q x := by
    intro cur hc x hx
    split at hx
    · cases hx
    · rw [List.mem_singleton.1 hx]
      exact sourceParse_readable hQ hc (by assumption)
  induction ls with
  | nil =>
    intro first cur hc _ x hx
    rw [parseFields] at hx
    exact key cur hc x hx
  | cons l ls ih =>
    intro first cur hc hl x hx
    have hls : ∀ k ∈ ls, isHeaderLine k = true ∧ LineEnd k ∧ ∀ c ∈ k, Q c := fun k hk => hl k (by simp [hk])
    obtain ⟨l1, l2, l3⟩ := hl l (by simp)
    rw [parseFields] at hx
    split at hx
    · rename_i hb
      refine ih false _ ?_ hls x hx
      split
      · exact .inl rfl
      · rename_i hne
        rcases hc with hc | ⟨f, ts, rfl, h1, h2, h3, h4⟩
        · exact absurd hc hne
        · refine .inr ⟨f, ts ++ [l], rfl, h1, h2, h3, ?_⟩
          intro k hk
          rcases List.mem_append.1 hk with hk | hk
          · exact h4 k hk
          · rw [List.mem_singleton.1 hk]
            exact ⟨l2, hb, l3⟩
    · rename_i hb
      simp only [List.mem_append] at hx
      rcases hx with hx | hx
      · exact key cur hc x hx
      · have hnil : Reading1 Q [] := .inl rfl
        split at hx
        · split at hx
          · exact ih false [] hnil hls x hx
          · split at hx
            · cases hx
            · exact ih false [] hnil hls x hx
        · rename_i hf
          split at hx
          · exact ih false [] hnil hls x hx
          · rename_i hh
            refine ih false [l] (.inr ⟨l, [], rfl, ?_, l2, l3, by simp⟩) hls x hx
            exact begins_of l1 (by simpa using hb) (Bool.eq_false_iff.2 hf) hh

theorem readMessage_readable {Q : Nat → Prop} (hQ : ∀ c, Q c → Ends c → c = 13 ∨ c = 10) (t : Txt)
    (ht : ∀ c ∈ t, Q c) : ∀ x ∈ (readMessage t).headers, Readable Q x := by
  refine parseFields_readable hQ _ true [] (.inl rfl) ?_
  intro l hl
  obtain ⟨h1, h2⟩ := takeHeaders_prefix (readLines t)
  have hm := h1.subset hl
  refine ⟨h2 l hl, readLines_end t l hm, ?_⟩
  intro c hc
  refine ht c ?_
  rw [← readLines_flatten t]
  exact List.mem_flatten.2 ⟨l, hm, hc⟩

/-! ### No header is forged -/

/-- The names of the headers that begin on these lines. -/
def namesIn (ls : List Txt) : List Txt :=
  ls.filterMap fun l => if startsBlank l || (txt "From ").isPrefixOf l || l.head? == some 58 then none
    else some (l.takeWhile (· != 58))

theorem parseFields_names (ls : List Txt) : ∀ (first : Bool) (cur : List Txt),
    (parseFields first cur ls).headers.map (·.1) =
      (if cur = [] then [] else [(cur.headD []).takeWhile (· != 58)]) ++ namesIn ls := by
  have key : ∀ cur : List Txt, (if cur = [] then [] else [sourceParse cur]).map (·.1) =
      (if cur = [] then [] else [(cur.headD []).takeWhile (· != 58)]) := by
    intro cur
    split <;> rfl
  induction ls with
  | nil =>
    intro first cur
    rw [parseFields]
    simp only [namesIn, List.filterMap_nil, List.append_nil]
    exact key cur
  | cons l ls ih =>
    intro first cur
    rw [parseFields]
    by_cases hb : startsBlank l = true
    · rw [if_pos hb, ih]
      have : namesIn (l :: ls) = namesIn ls := by simp [namesIn, hb]
      rw [this]
      cases cur <;> simp
    · rw [if_neg hb]
      simp only [List.map_append, key]
      congr 1
      by_cases hf : (txt "From ").isPrefixOf l = true
      · have : namesIn (l :: ls) = namesIn ls := by
          rw [namesIn, List.filterMap_cons, hf]
          simp [namesIn]
        rw [this, if_pos hf]
        cases first with
        | true => simp [ih]
        | false =>
          cases ls with
          | nil => rfl
          | cons k ls => simp [ih]
      · rw [if_neg hf]
        by_cases hh : l.head? = some 58
        · have : namesIn (l :: ls) = namesIn ls := by simp [namesIn, hh]
          rw [this, if_pos hh, ih]
          simp
        · have : namesIn (l :: ls) = l.takeWhile (· != 58) :: namesIn ls := by
            have hf' : (txt "From ").isPrefixOf l = false := Bool.eq_false_iff.2 hf
            have hb' : startsBlank l = false := Bool.eq_false_iff.2 hb
            have hh' : (l.head? == some 58) = false := by simpa using hh
            rw [namesIn, List.filterMap_cons, hf', hb', hh']
            rfl
          rw [this, if_neg hh, ih]
          simp

theorem namesIn_append (a b : List Txt) : namesIn (a ++ b) = namesIn a ++ namesIn b := by
  simp [namesIn]

theorem takeWhile_prefix (p : Nat → Bool) (a b : Txt) : a.takeWhile p <+: (a ++ b).takeWhile p := by
  induction a with
  | nil => exact List.nil_prefix
  | cons c a ih =>
    rw [List.cons_append, List.takeWhile_cons, List.takeWhile_cons]
    split
    · exact List.cons_prefix_cons.2 ⟨rfl, ih⟩
    · exact List.nil_prefix

theorem embedded_each {ls : List Txt} (h : embedded (ls.flatMap (10 :: ·)) = false) :
    ∀ l ∈ ls, 58 ∉ (l.takeWhile fun d => !isBlank d).drop 1 := by
  have tail : ∀ (x y : Txt), embedded (x ++ y) = false → embedded y = false := by
    intro x
    induction x with
    | nil => intro y h; exact h
    | cons c x ih =>
      intro y h
      rw [List.cons_append, embedded, Bool.or_eq_false_iff] at h
      exact ih y h.2
  induction ls with
  | nil => simp
  | cons l ls ih =>
    intro k hk
    rw [List.flatMap_cons, List.cons_append, embedded, Bool.or_eq_false_iff] at h
    rcases List.mem_cons.1 hk with rfl | hk
    · intro hm
      have h1 := h.1
      simp only [beq_self_eq_true, Bool.true_and] at h1
      have h2 : 58 ∈ (((k ++ ls.flatMap (10 :: ·)).takeWhile fun d => !isBlank d).drop 1) := by
        have : (k.takeWhile fun d => !isBlank d) <+: ((k ++ ls.flatMap (10 :: ·)).takeWhile fun d => !isBlank d) :=
          takeWhile_prefix _ _ _
        obtain ⟨t, ht⟩ := this
        rw [← ht]
        cases hk : k.takeWhile fun d => !isBlank d with
        | nil => rw [hk] at hm; simp at hm
        | cons y ys => rw [hk] at hm; simp at hm ⊢; exact .inl hm
      rw [List.contains_iff_mem.2 h2] at h1
      cases h1
    · exact ih (tail _ _ h.2) k hk

/-- A line of the value is not read as a header, if the check passes. -/
theorem not_named {l : Txt} (h : 58 ∉ (l.takeWhile fun d => !isBlank d).drop 1)
    (hh : isHeaderLine (l ++ [13, 10]) = true) : namesIn [l ++ [13, 10]] = [] := by
  by_contra hc
  have hx : startsBlank (l ++ [13, 10]) = false ∧ (txt "From ").isPrefixOf (l ++ [13, 10]) = false ∧
      (l ++ [13, 10]).head? ≠ some 58 := by
    refine ⟨?_, ?_, ?_⟩
    · refine Bool.eq_false_iff.2 fun h => hc ?_
      simp only [namesIn, List.filterMap_cons, h, Bool.true_or, if_true, List.filterMap_nil]
    · refine Bool.eq_false_iff.2 fun h => hc ?_
      simp only [namesIn, List.filterMap_cons, h, Bool.true_or, Bool.or_true, if_true, List.filterMap_nil]
    · intro h
      refine hc ?_
      simp only [namesIn, List.filterMap_cons, h, beq_self_eq_true, Bool.or_true, if_true, List.filterMap_nil]
  obtain ⟨n, r, hn, he⟩ := begins_of hh hx.1 hx.2.1 hx.2.2
  have h1 := List.append_eq_append_iff.1 he
  rcases h1 with ⟨a, h1, h2⟩ | ⟨c, h1, h2⟩
  · have : 13 ∈ n := by
      cases a with
      | nil => cases h2
      | cons x a =>
        have := (List.cons.inj h2).1
        rw [h1, this]
        simp
    have := hn.2 13 this
    omega
  · cases c with
    | nil => cases h2
    | cons x c =>
      have hx58 := (List.cons.inj h2).1
      subst hx58
      refine h ?_
      rw [h1, List.takeWhile_append_of_pos]
      · obtain ⟨hne, -⟩ := hn
        cases n with
        | nil => exact absurd rfl hne
        | cons y n =>
          rw [List.cons_append, List.drop_one, List.tail_cons, List.takeWhile_cons_of_pos (by rfl)]
          simp
      · intro d hd
        have := hn.2 d hd
        simp [isBlank]
        omega

/-- The names of the headers that begin on these lines, if they are read as headers. -/
def headsIn (ls : List Txt) : List Txt :=
  ls.flatMap fun l => if isHeaderLine l then namesIn [l] else []

theorem headsIn_all {ls : List Txt} (h : ∀ l ∈ ls, isHeaderLine l = true) : headsIn ls = namesIn ls := by
  induction ls with
  | nil => rfl
  | cons l ls ih =>
    have e : namesIn (l :: ls) = namesIn [l] ++ namesIn ls := namesIn_append [l] ls
    rw [headsIn, List.flatMap_cons, if_pos (h l (by simp)), e, ← ih (fun x hx => h x (by simp [hx]))]
    rfl

/-- The lines of a header that has passed the check for embedded headers. -/
structure Field.Weak (f : Field) : Prop where
  name : FieldName f.name
  first : OneLine f.first
  more : ∀ l ∈ f.more, OneLine l ∧ 58 ∉ (l.takeWhile fun d => !isBlank d).drop 1

theorem heads_field {f : Field} (h : f.Weak) : headsIn (f.lines.map (· ++ [13, 10])) = [f.name] := by
  have h58 : ∀ c ∈ f.name, (c != 58) = true := by
    intro c hc
    have := h.name.2 c hc
    simp [this]
  have e1 : isHeaderLine (f.name ++ 58 :: 32 :: f.first ++ [13, 10]) = true := by
    rw [isHeaderLine, List.append_assoc, List.cons_append, name_drop h.name]
    simp
  have e2 : namesIn [f.name ++ 58 :: 32 :: f.first ++ [13, 10]] = [f.name] := by
    rw [List.append_assoc, List.cons_append]
    have h3 := (name_starts h.name (58 :: (32 :: f.first ++ [13, 10]))).2
    have h3' : ((f.name ++ 58 :: (32 :: f.first ++ [13, 10])).head? == some 58) = false := by
      rw [Bool.eq_false_iff]; simpa using h3
    simp only [namesIn, List.filterMap_cons, List.filterMap_nil]
    rw [name_not_from h.name, (name_starts h.name _).1, h3', List.takeWhile_append_of_pos h58,
      List.takeWhile_cons_of_neg (by decide), List.append_nil]
    rfl
  have e3 : headsIn (f.more.map (· ++ [13, 10])) = [] := by
    rw [headsIn, List.flatMap_eq_nil_iff]
    intro k hk
    obtain ⟨l, hl, rfl⟩ := List.mem_map.1 hk
    split
    · rename_i hh
      exact not_named (h.more l hl).2 hh
    · rfl
  rw [Field.lines, List.map_cons, headsIn, List.flatMap_cons, if_pos e1, e2]
  rw [headsIn] at e3
  rw [e3]
  rfl

theorem heads_fields {fs : List Field} (h : ∀ f ∈ fs, f.Weak) :
    headsIn ((fs.flatMap Field.lines).map (· ++ [13, 10])) = fs.map Field.name := by
  induction fs with
  | nil => rfl
  | cons f fs ih =>
    have := heads_field (h f (by simp))
    have ih := ih (fun g hg => h g (by simp [hg]))
    rw [headsIn] at this ih ⊢
    rw [List.flatMap_cons, List.map_append, List.flatMap_append, this, ih]
    rfl

theorem takeHeaders_stops (ls r : List Txt) : (takeHeaders (ls ++ [13, 10] :: r)).1 <+: ls := by
  induction ls with
  | nil => exact List.prefix_refl _
  | cons l ls ih =>
    rw [List.cons_append, takeHeaders]
    split
    · exact List.cons_prefix_cons.2 ⟨rfl, ih⟩
    · split <;> exact List.nil_prefix

theorem headsIn_prefix {a b : List Txt} (h : a <+: b) : headsIn a <+: headsIn b := by
  obtain ⟨t, rfl⟩ := h
  exact ⟨headsIn t, by simp [headsIn]⟩

theorem read_names {ls : List Txt} (hl : ∀ l ∈ ls, OneLine l) (body : Txt) :
    (readMessage (ls.flatMap (· ++ [13, 10]) ++ 13 :: 10 :: body)).headers.map (·.1) <+:
      headsIn (ls.map (· ++ [13, 10])) := by
  unfold readMessage
  have e : readLines (13 :: 10 :: body) = [13, 10] :: readLines body := by rw [readLines]
  simp only
  rw [parseFields_names, if_pos rfl, List.nil_append, readLines_lines hl, e,
    ← headsIn_all (takeHeaders_prefix _).2]
  exact headsIn_prefix (takeHeaders_stops _ _)

theorem foldAll_weak (P : Printer) : ∀ (hs : Headers) (ts : List Txt),
    (∀ x ∈ hs, FieldName x.1 ∧ (x.2 = .none ∨ ∃ v, x.2 = .str v ∧ Ascii v)) → P.foldAll hs = .ok ts →
    ∃ fs : List Field, (∀ f ∈ fs, f.Weak) ∧ ts.flatten = (fs.flatMap Field.lines).flatMap (· ++ [10]) ∧
      fs.map Field.name = hs.map (·.1) := by
  intro hs
  induction hs with
  | nil =>
    intro ts _ h
    rw [Printer.foldAll] at h
    cases h
    exact ⟨[], by simp, rfl, rfl⟩
  | cons x hs ih =>
    obtain ⟨n, s⟩ := x
    intro ts hx h
    rw [Printer.foldAll] at h
    split at h
    · cases h
    · rename_i t ht
      split at h
      · cases h
      · rename_i ts' hts
        cases h
        obtain ⟨fs, h1, h2, h3⟩ := ih ts' (fun y hy => hx y (by simp [hy])) hts
        obtain ⟨hn, hv⟩ := hx (n, s) (by simp)
        have : ∃ f : Field, f.Weak ∧ f.name = n ∧ t = f.lines.flatMap (· ++ [10]) := by
          rcases hv with hv | ⟨v, hv, ha⟩
          · simp only at hv
            subst hv
            refine ⟨⟨n, [], []⟩, ⟨hn, (by intro c hc; cases hc), (by simp)⟩, rfl, ?_⟩
            exact ((checked_iff P (f := ⟨n, [], []⟩) hn (by intro c hc; cases hc) (by simp) t).1
              (by simpa [Printer.fold] using ht)).2
          · simp only at hv
            subst hv
            obtain ⟨g1, g2, -⟩ := fieldOf_lines P.max n v
            rw [Printer.fold, ascii_any ha] at ht
            simp only [Bool.false_eq_true, if_false] at ht
            split at ht
            · cases ht
            · rename_i he
              rw [joinLf_flat] at he ht
              refine ⟨fieldOf P.max n v, ⟨hn, g1, ?_⟩, rfl, ((checked_iff P (f := fieldOf P.max n v) hn g1 g2 t).1 ht).2⟩
              intro l hl
              refine ⟨(g2 l hl).1, ?_⟩
              rw [embedded_oneLine (l := (encodedLines P.max n v).headD []) g1, Bool.not_eq_true] at he
              exact embedded_each he l hl
        obtain ⟨f, f1, f2, f3⟩ := this
        refine ⟨f :: fs, ?_, ?_, by simp [f2, h3]⟩
        · intro g hg
          rcases List.mem_cons.1 hg with rfl | hg
          · exact f1
          · exact h1 g hg
        · rw [List.flatten_cons, f3, h2]; simp

theorem Field.Weak.oneLine {f : Field} (h : f.Weak) : ∀ l ∈ f.lines, OneLine l := by
  intro l hl
  rcases List.mem_cons.1 hl with rfl | hl
  · have := nameLine h.name h.first
    intro c hc
    refine this c ?_
    simpa [txt] using hc
  · exact (h.more l hl).1

/-- If `as_string` succeeds, the headers could be folded. -/
theorem asString_folded (P : Printer) {uf mg : Bool} {hs : Headers} {ct : Txt} {w : List Txt} {u : Txt}
    {p e : Option Txt} {b : Txt} {pl : Cargo Doc} {s : Txt}
    (hP : Parsed (fun ct => ¬ NamesStatus ct) (.doc ct [] w u p e b pl))
    (h : P.asString uf mg hs (fun f => .doc ct f w u p e b pl) = .ok s) :
    ∃ ts body, P.foldAll hs = .ok ts ∧ bodyOf mg false (.doc ct [] w u p e b pl) = .ok body ∧
      s = forceCrlf ((if uf then u ++ [10] else []) ++ (ts.flatten ++ 10 :: body)) := by
  obtain ⟨t, h0⟩ := parsed_flatten hP mg false
  have hb : ∃ body, bodyOf mg false (.doc ct [] w u p e b pl) = .ok body := by
    rw [flatten] at h0
    split at h0
    · exact ⟨_, by assumption⟩
    · cases h0
  obtain ⟨body, hb⟩ := hb
  rw [Printer.asString] at h
  cases hf : P.foldAll hs with
  | error er =>
    rw [hf] at h
    simp only [hb] at h
    cases h
  | ok ts =>
    rw [hf] at h
    simp only at h
    have e1 : flatten mg false (.doc ct ts w u p e b pl) = .ok (ts.flatten ++ 10 :: body) := by
      rw [flatten, bodyOf_folded, hb]; rfl
    rw [asString.eq_def] at h
    simp only [generate, e1] at h
    exact ⟨ts, body, rfl, hb, (Except.ok.inj h).symm⟩

/-! ### C116 -/

/-- Headers whose values are continued as they should be can always be written, and
whoever reads the text finds them again, with the `From ` line and the body. -/
theorem C116_reread_partial (P : Printer) (uf mg : Bool) (hs : Headers) (ct : Txt) (w : List Txt) (u : Txt)
    (p e : Option Txt) (b : Txt) (pl : Cargo Doc)
    (hP : Parsed (fun ct => ¬ NamesStatus ct) (.doc ct [] w u p e b pl))
    (hu : uf = true → OneLine u ∧ ∃ x, u = txt "From " ++ x)
    (hh : ∀ x ∈ hs, FieldName x.1 ∧ (x.2 = .none ∨ ∃ v, x.2 = .str v ∧ Ascii v ∧ Continued v)) :
    ∃ s, P.asString uf mg hs (fun f => .doc ct f w u p e b pl) = .ok s ∧
      (readMessage s).unixfrom = (if uf then some u else none) ∧
      SameHeaders hs (readMessage s).headers ∧
      asString false mg (.doc ct [] w u p e b pl) = .ok (13 :: 10 :: (readMessage s).body) := by
  obtain ⟨ts, ht⟩ := foldAll_works P hs (fun x hx => fold_works P (hh x hx).1 (hh x hx).2)
  refine asString_read P uf mg hs ct w u p e b pl ts hP hu (fun x hx => ⟨(hh x hx).1, ?_⟩) ht
  rcases (hh x hx).2 with h | ⟨v, h1, h2, h3⟩
  · exact .inl h
  · exact .inr ⟨v, h1, h2, .inl h3⟩

/-- The claim: a message that was read can be written, and whoever reads the text finds
the same headers. -/
def C116Claim : Prop := ∀ (P : Printer) (t : Txt), Ascii t → ∀ ct w u p e b pl,
  Parsed (fun ct => ¬ NamesStatus ct) (.doc ct [] w u p e b pl) →
  ∃ s, P.asString false true (readMessage t).headers (fun f => .doc ct f w u p e b pl) = .ok s ∧
    SameHeaders (readMessage t).headers (readMessage s).headers

/-- It holds for all texts without the characters VT, FF, FS, GS and RS, whatever the
version of Python. -/
theorem C116_trip_partial (P : Printer) (uf mg : Bool) (t : Txt) (ct : Txt) (w : List Txt) (u : Txt)
    (p e : Option Txt) (b : Txt) (pl : Cargo Doc)
    (hP : Parsed (fun ct => ¬ NamesStatus ct) (.doc ct [] w u p e b pl))
    (hu : uf = true → OneLine u ∧ ∃ x, u = txt "From " ++ x)
    (ht : ∀ c ∈ t, c < 128 ∧ c ≠ 11 ∧ c ≠ 12 ∧ c ≠ 28 ∧ c ≠ 29 ∧ c ≠ 30) :
    ∃ s, P.asString uf mg (readMessage t).headers (fun f => .doc ct f w u p e b pl) = .ok s ∧
      (readMessage s).unixfrom = (if uf then some u else none) ∧
      SameHeaders (readMessage t).headers (readMessage s).headers ∧
      asString false mg (.doc ct [] w u p e b pl) = .ok (13 :: 10 :: (readMessage s).body) := by
  refine C116_reread_partial P uf mg _ ct w u p e b pl hP hu ?_
  intro x hx
  obtain ⟨h1, v, h2, h3, h4⟩ := readMessage_readable
    (Q := fun c => c < 128 ∧ c ≠ 11 ∧ c ≠ 12 ∧ c ≠ 28 ∧ c ≠ 29 ∧ c ≠ 30)
    (by intro c hc he; unfold Ends at he; omega) t ht x hx
  exact ⟨h1, .inr ⟨v, h2, fun c hc => (h4 c hc).1, h3⟩⟩

/-- Where headers are checked before they are written, a text that was written is read
as it should be, whatever the values are. -/
theorem C116_checked (P : Printer) (hv : P.verify = true) (uf mg : Bool) (hs : Headers) (ct : Txt) (w : List Txt)
    (u : Txt) (p e : Option Txt) (b : Txt) (pl : Cargo Doc) (s : Txt)
    (hP : Parsed (fun ct => ¬ NamesStatus ct) (.doc ct [] w u p e b pl))
    (hu : uf = true → OneLine u ∧ ∃ x, u = txt "From " ++ x)
    (hh : ∀ x ∈ hs, FieldName x.1 ∧ (x.2 = .none ∨ ∃ v, x.2 = .str v ∧ Ascii v))
    (h : P.asString uf mg hs (fun f => .doc ct f w u p e b pl) = .ok s) :
      (readMessage s).unixfrom = (if uf then some u else none) ∧
      SameHeaders hs (readMessage s).headers ∧
      asString false mg (.doc ct [] w u p e b pl) = .ok (13 :: 10 :: (readMessage s).body) := by
  obtain ⟨ts, _, ht, _, _⟩ := asString_folded P hP h
  obtain ⟨s', h1, h2⟩ := asString_read P uf mg hs ct w u p e b pl ts hP hu (fun x hx => ⟨(hh x hx).1, by
    rcases (hh x hx).2 with h | ⟨v, h1, h2⟩
    · exact .inl h
    · exact .inr ⟨v, h1, h2, .inr hv⟩⟩) ht
  rw [h] at h1
  cases h1
  exact h2

/-- No header is forged: in every version, whatever the values are, the names that are
read are those that were written, in their order, from the first one on. -/
theorem C116_no_forgery (P : Printer) (uf mg : Bool) (hs : Headers) (ct : Txt) (w : List Txt) (u : Txt)
    (p e : Option Txt) (b : Txt) (pl : Cargo Doc) (s : Txt)
    (hP : Parsed (fun ct => ¬ NamesStatus ct) (.doc ct [] w u p e b pl))
    (hu : uf = true → OneLine u ∧ ∃ x, u = txt "From " ++ x)
    (hh : ∀ x ∈ hs, FieldName x.1 ∧ (x.2 = .none ∨ ∃ v, x.2 = .str v ∧ Ascii v))
    (h : P.asString uf mg hs (fun f => .doc ct f w u p e b pl) = .ok s) :
    (readMessage s).headers.map (·.1) <+: hs.map (·.1) := by
  obtain ⟨ts, body, ht, -, rfl⟩ := asString_folded P hP h
  obtain ⟨fs, f1, f2, f3⟩ := foldAll_weak P hs ts hh ht
  have hl : ∀ l ∈ fs.flatMap Field.lines, OneLine l := by
    intro l hl
    obtain ⟨f, hf, hl⟩ := List.mem_flatMap.1 hl
    exact (f1 f hf).oneLine l hl
  rw [← f3, ← heads_fields f1, f2]
  have e : forceCrlf (10 :: body) = 13 :: 10 :: forceCrlf body :=
    crlf_oneLine (l := []) (by intro c hc; cases hc) body
  cases uf with
  | false =>
    simp only [Bool.false_eq_true, if_false, List.nil_append]
    rw [crlf_lines hl, e]
    exact read_names hl _
  | true =>
    obtain ⟨hu1, x, rfl⟩ := hu rfl
    have hl' : ∀ l ∈ (txt "From " ++ x) :: fs.flatMap Field.lines, OneLine l := by
      intro l hlm
      rcases List.mem_cons.1 hlm with rfl | hlm
      · exact hu1
      · exact hl l hlm
    have h1 := read_names hl' (forceCrlf body)
    have h2 : headsIn (((txt "From " ++ x) :: fs.flatMap Field.lines).map (· ++ [13, 10])) =
        headsIn ((fs.flatMap Field.lines).map (· ++ [13, 10])) := by
      have hp : (txt "From ").isPrefixOf (txt "From " ++ x ++ [13, 10]) = true := by
        rw [List.isPrefixOf_iff_prefix, List.append_assoc]
        exact List.prefix_append _ _
      have : namesIn [txt "From " ++ x ++ [13, 10]] = [] := by
        simp only [namesIn, List.filterMap_cons, hp, Bool.true_or, Bool.or_true, if_true, List.filterMap_nil]
      rw [List.map_cons, headsIn, List.flatMap_cons, this]
      simp [headsIn]
    rw [h2] at h1
    simp only [if_true]
    rw [List.append_assoc, List.singleton_append, crlf_oneLine hu1, crlf_lines hl, e]
    simpa using h1

theorem text_parsed (f : List Txt) (w : List Txt) (u : Txt) (p e : Option Txt) (b t : Txt) :
    Parsed (fun ct => ¬ NamesStatus ct) (.doc (txt "text/plain") f w u p e b (.str t)) := by
  refine .leaf (main := txt "text") (sub := txt "plain") (by decide) (by decide) (by decide) ?_
  rintro ⟨main, sub, h, hm, hs⟩
  have h1 := (handlerOf_status (main := main) (sub := sub) hm).2 ⟨main, sub, rfl, hm, hs⟩
  rw [← h] at h1
  exact absurd h1 (by decide)

/-- A message with the character VT in a header, as text. -/
def vtText : Txt := txt "Subject: a" ++ 11 :: txt "X: b\n\nhi\n"

/-- Such a message cannot be written, in any version. -/
theorem C116_raises (P : Printer) (uf mg : Bool) (hs : Headers) (ct : Txt) (w : List Txt) (u : Txt)
    (p e : Option Txt) (b : Txt) (pl : Cargo Doc)
    (hP : Parsed (fun ct => ¬ NamesStatus ct) (.doc ct [] w u p e b pl)) :
    P.asString uf mg ((txt "Subject", .str (97 :: 11 :: txt "X: b")) :: hs) (fun f => .doc ct f w u p e b pl) =
      .error .exception := by
  have hf : P.foldAll ((txt "Subject", .str (97 :: 11 :: txt "X: b")) :: hs) = .error .exception := by
    have : P.fold (txt "Subject") (.str (97 :: 11 :: txt "X: b")) = .error .exception := by
      have e : encodedLines P.max (txt "Subject") (97 :: 11 :: txt "X: b") = [[97], txt "X: b"] := by
        unfold Printer.max
        cases P.wide
        · decide
        · decide
      rw [Printer.fold, if_neg (by decide)]
      simp only [e]
      rw [if_pos (by decide)]
    rw [Printer.foldAll, this]
  obtain ⟨t, h0⟩ := parsed_flatten hP mg false
  rw [flatten] at h0
  split at h0
  · rename_i body hb
    rw [Printer.asString, hf]
    simp only [hb]
  · cases h0

theorem C116_claim_false : ¬ C116Claim := by
  intro h
  obtain ⟨s, hs, -⟩ := h ⟨false, fun _ _ => .error .exception, false⟩ vtText (by unfold Ascii; decide) (txt "text/plain") []
    [] none none [] (.str (txt "hi")) (text_parsed _ _ _ _ _ _ _)
  have : (readMessage vtText).headers = [(txt "Subject", .str (97 :: 11 :: txt "X: b"))] := by decide
  rw [this, C116_raises _ _ _ _ _ _ _ _ _ _ _ (text_parsed _ _ _ _ _ _ _)] at hs
  cases hs

/-- Where headers are not checked, all headers after one with such a character are lost:
the reader takes them for the body. -/
theorem C116_headers_lost (P : Printer) (hv : P.verify = false) (mg : Bool) (hs : Headers) (ct : Txt)
    (w : List Txt) (u : Txt) (p e : Option Txt) (b : Txt) (pl : Cargo Doc)
    (hP : Parsed (fun ct => ¬ NamesStatus ct) (.doc ct [] w u p e b pl))
    (hh : ∀ x ∈ hs, FieldName x.1 ∧ (x.2 = .none ∨ ∃ v, x.2 = .str v ∧ Ascii v ∧ Continued v)) :
    ∃ s, P.asString false mg ((txt "Subject", .str [97, 11, 98]) :: hs) (fun f => .doc ct f w u p e b pl) = .ok s ∧
      (readMessage s).headers = [(txt "Subject", .str [97])] := by
  obtain ⟨ts, ht⟩ := foldAll_works P hs (fun x hx => fold_works P (hh x hx).1 (hh x hx).2)
  have h1 : P.fold (txt "Subject") (.str [97, 11, 98]) = .ok (txt "Subject: a\nb\n") := by
    have e : encodedLines P.max (txt "Subject") [97, 11, 98] = [[97], [98]] := by
      unfold Printer.max
      cases P.wide
      · decide
      · decide
    rw [Printer.fold, if_neg (by decide)]
    simp only [e]
    rw [if_neg (by decide), Printer.checked, hv]
    decide
  have hf : P.foldAll ((txt "Subject", .str [97, 11, 98]) :: hs) = .ok (txt "Subject: a\nb\n" :: ts) := by
    rw [Printer.foldAll, h1, ht]
  obtain ⟨t, h0⟩ := parsed_flatten hP mg false
  rw [flatten] at h0
  split at h0
  · rename_i body hb
    have e1 : flatten mg false (.doc ct (txt "Subject: a\nb\n" :: ts) w u p e b pl) =
        .ok ((txt "Subject: a\nb\n" :: ts).flatten ++ 10 :: body) := by
      rw [flatten, bodyOf_folded, hb]; rfl
    refine ⟨_, by rw [Printer.asString, hf]; simp only; rw [asString.eq_def]; simp only [generate, e1]; rfl, ?_⟩
    simp only [Bool.false_eq_true, if_false, List.nil_append]
    have e2 : (txt "Subject: a\nb\n" :: ts).flatten ++ 10 :: body =
        txt "Subject: a" ++ 10 :: (txt "b" ++ 10 :: (ts.flatten ++ 10 :: body)) := by
      simp [txt]
    rw [e2, crlf_oneLine (by unfold OneLine; decide), crlf_oneLine (by unfold OneLine; decide)]
    unfold readMessage
    rw [readLines_oneLine (by unfold OneLine; decide), readLines_oneLine (by unfold OneLine; decide)]
    have e3 : ∀ r, (takeHeaders ((txt "Subject: a" ++ [13, 10]) :: (txt "b" ++ [13, 10]) :: r)).1 =
        [txt "Subject: a" ++ [13, 10]] := by
      intro r
      rw [takeHeaders, if_pos (by decide), takeHeaders, if_neg (by decide), if_neg (by decide)]
    simp only [e3]
    decide
  · cases h0

/-- The body of a text message is the same but for the ends of lines and, if asked for,
the quoting of lines that begin with "From ". -/
theorem C116_text (P : Printer) (uf mg : Bool) (hs : Headers) (main sub : Txt) (w : List Txt) (u : Txt)
    (p e : Option Txt) (b t : Txt) (hm : 47 ∉ main) (ht : PrintsAsText main sub)
    (hP : Parsed (fun ct => ¬ NamesStatus ct) (.doc (main ++ 47 :: sub) [] w u p e b (.str t)))
    (hu : uf = true → OneLine u ∧ ∃ x, u = txt "From " ++ x)
    (hh : ∀ x ∈ hs, FieldName x.1 ∧ (x.2 = .none ∨ ∃ v, x.2 = .str v ∧ Ascii v ∧ Continued v)) :
    ∃ s, P.asString uf mg hs (fun f => .doc (main ++ 47 :: sub) f w u p e b (.str t)) = .ok s ∧
      SameHeaders hs (readMessage s).headers ∧
      List.Forall₂ (fun x y => y = x ∨ mg = true ∧ y = quoteFrom x) (lines t) (lines (readMessage s).body) ∧
      (mg = false → lines (readMessage s).body = lines t) := by
  obtain ⟨s, h1, -, h3, h4⟩ := C116_reread_partial P uf mg hs _ w u p e b _ hP hu hh
  obtain ⟨s', body, g1, g2, g3, g4, -⟩ := C100_text false mg main sub [] w [] p e b t hm ht (by simp) (by
    intro c hc; cases hc)
  have hs' : s' = 13 :: 10 :: (readMessage s).body := by
    have : asString false mg (.doc (main ++ 47 :: sub) [] w [] p e b (.str t)) =
        asString false mg (.doc (main ++ 47 :: sub) [] w u p e b (.str t)) := by
      rw [asString.eq_def, asString.eq_def]
      simp only [generate, flatten, bodyOf.eq_def]
      rfl
    rw [List.map_nil, this, h4] at g1
    exact (Except.ok.inj g1).symm
  rw [hs', lines_crlf] at g2
  simp only [Bool.false_eq_true, if_false, List.flatten_nil, List.nil_append, List.cons.injEq, true_and] at g2
  subst g2
  exact ⟨s, h1, h3, g3, g4⟩

/-- A message that is read, written and read again, with a header of three lines. -/
example : (readMessage (txt "Subject: a b\r\n c\n\td\nTo: me\n\nhi\n")).headers =
    [(txt "Subject", .str (txt "a b\r\n c\n\td")), (txt "To", .str (txt "me"))] := by decide

example : FieldName (txt "Subject") ∧ Ascii (txt "a b\r\n c\n\td") ∧ Short (txt "To") (txt "me") :=
  ⟨⟨by decide, by decide⟩, by unfold Ascii; decide, ⟨by unfold Ends; decide, by
    intro c r h; have := (List.cons.inj h).1; subst this; decide, by decide⟩⟩

/-- A value that is not continued. -/
example : ¬ Continued [97, 11, 98] := by
  intro h
  have := h [97] 11 98 [] rfl (.inr (.inl rfl))
  omega

/-! ### Names with line breaks, and the `From ` line -/

theorem loose_step {c : Nat} {r : Txt} (h : loose r = true) : loose (c :: r) = true := by
  rw [loose.eq_def]
  split
  · cases ‹_›
  · rename_i e; cases e; rw [h]; simp
  · rename_i e; cases e; rw [h]; simp
  · rename_i e; cases e; rw [h]; simp
  · rename_i e; cases e; exact h

theorem loose_at (a : Txt) {b : Txt} (h : loose b = true) : loose (a ++ b) = true := by
  induction a with
  | nil => exact h
  | cons c a ih => exact loose_step ih

theorem loose_break {e : Txt} {d : Nat} (r : Txt) (he : e = [10] ∨ e = [13] ∨ e = [13, 10])
    (hd : d ≠ 32 ∧ d ≠ 9 ∧ d ≠ 10) : loose (e ++ d :: r) = true := by
  have hb : isBlank d = false := by simp [isBlank, hd.1, hd.2.1]
  rcases he with rfl | rfl | rfl
  · show loose (10 :: d :: r) = true
    rw [loose]; simp [hb]
  · show loose (13 :: d :: r) = true
    rw [loose.eq_def]
    split
    · cases ‹_›
    · rename_i e; cases e; exact absurd rfl hd.2.2
    · rename_i e; cases e; simp [hb, hd.2.2]
    · rename_i e; cases e
    · rename_i h _ e; cases e; exact (h _ _ rfl rfl).elim
  · show loose (13 :: 10 :: d :: r) = true
    rw [loose]; simp [hb]

/-- Where headers are checked, a name with a line break in it (LF, CR or CR LF) is not
written either, whatever the value. -/
theorem C116_names (P : Printer) (hv : P.verify = true) (uf mg : Bool) (hs : Headers) (ct : Txt) (w : List Txt)
    (u : Txt) (p e : Option Txt) (b : Txt) (pl : Cargo Doc)
    (hP : Parsed (fun ct => ¬ NamesStatus ct) (.doc ct [] w u p e b pl))
    (x : Txt × Stored) (hx : x ∈ hs) (hx2 : x.2 = .none ∨ ∃ v, x.2 = .str v ∧ Ascii v)
    (n r brk : Txt) (d : Nat) (hb : brk = [10] ∨ brk = [13] ∨ brk = [13, 10]) (hd : d ≠ 32 ∧ d ≠ 9 ∧ d ≠ 10)
    (hn : x.1 = n ++ brk ++ d :: r) (s : Txt) :
    P.asString uf mg hs (fun f => .doc ct f w u p e b pl) ≠ .ok s := by
  intro h
  obtain ⟨ts, _, ht, -, -⟩ := asString_folded P hP h
  have hc : ∀ text, P.checked x.1 text = .error .exception := by
    intro text
    rw [Printer.checked, if_pos]
    rw [hv, hn, List.append_assoc, List.append_assoc, List.append_assoc, Bool.true_and]
    exact loose_at _ (loose_break _ hb hd)
  have hf : ∃ e, P.fold x.1 x.2 = .error e := by
    rcases hx2 with h | ⟨v, h, ha⟩
    · exact ⟨_, by rw [h, Printer.fold, hc]⟩
    · have hany : v.any (fun c => decide (128 ≤ c)) = false := by
        rw [List.any_eq_false]
        intro c hc
        have := ha c hc
        simp; omega
      rw [h, Printer.fold, hany]
      simp only [Bool.false_eq_true, if_false]
      split
      · exact ⟨_, rfl⟩
      · exact ⟨_, hc _⟩
  obtain ⟨er, hf⟩ := hf
  clear h hP
  induction hs generalizing ts with
  | nil => cases hx
  | cons y hs ih =>
    rw [Printer.foldAll] at ht
    rcases List.mem_cons.1 hx with rfl | hx
    · rw [hf] at ht; cases ht
    · cases h1 : P.fold y.1 y.2 with
      | error e => rw [h1] at ht; cases ht
      | ok t =>
        rw [h1] at ht
        cases h2 : P.foldAll hs with
        | error e => rw [h2] at ht; cases ht
        | ok ts => exact ih hx ts h2

example : ∃ s, (Printer.asString ⟨false, fun _ _ => .error .exception, false⟩ false false [(txt "A\rB", .str (txt "c"))]
    (fun f => .doc (txt "text/plain") f [] [] none none [] (.str []))) = .ok s ∧
    ∀ s, (Printer.asString ⟨true, fun _ _ => .error .exception, false⟩ false false [(txt "A\rB", .str (txt "c"))]
    (fun f => .doc (txt "text/plain") f [] [] none none [] (.str []))) ≠ .ok s := by
  refine ⟨txt "A\r\nB: c\r\n\r\n", ?_, fun s => ?_⟩
  · rw [Printer.asString, show Printer.foldAll ⟨false, fun _ _ => .error .exception, false⟩ [(txt "A\rB", .str (txt "c"))] =
      .ok [txt "A\rB: c\n"] by rfl]
    simp only
    rw [asString.eq_def]
    simp only [generate, flatten, bodyOf.eq_def, show handlerOf (txt "text/plain") = .text by decide]
    rfl
  exact C116_names _ rfl _ _ _ _ _ _ _ _ _ _ (text_parsed ..) (txt "A\rB", .str (txt "c")) (by simp)
    (.inr ⟨_, rfl, by unfold Ascii; decide⟩) [65] [] [13] 66 (by simp) (by decide) rfl s

theorem line_first {l e r : Txt} (h : OneLine l) (hl : l ≠ [])
    (he : e = [10] ∨ (e = [13] ∧ r.head? ≠ some 10) ∨ e = [13, 10] ∨ (e = [] ∧ r = [])) :
    readLines (l ++ e ++ r) = (l ++ e) :: readLines r := by
  induction l with
  | nil => exact absurd rfl hl
  | cons c l ih =>
    have hc := h c (by simp)
    rw [List.cons_append, List.cons_append, readLines_cons (by intro s hs; exact hc.1 (List.cons.inj hs).1),
      if_neg (by simp [hc])]
    by_cases hn : l = []
    · subst hn
      rcases he with rfl | ⟨rfl, h1⟩ | rfl | ⟨rfl, rfl⟩
      · show (match readLines (10 :: r) with | [] => [[c]] | l :: ls => (c :: l) :: ls) = _
        rw [readLines_cons (by rintro s ⟨⟩)]; rfl
      · show (match readLines (13 :: r) with | [] => [[c]] | l :: ls => (c :: l) :: ls) = _
        rw [readLines_cons (by rintro s hs; cases hs; exact h1 rfl)]; rfl
      · show (match readLines (13 :: 10 :: r) with | [] => [[c]] | l :: ls => (c :: l) :: ls) = _
        rw [readLines]; rfl
      · rfl
    · rw [ih (fun x hx => h x (by simp [hx])) hn]

/-- The first line of a text, if it begins with "From ", is kept without its end, whatever
that is; also if nothing follows. -/
theorem C116_unixfrom (x e r : Txt) (h : OneLine x)
    (he : e = [10] ∨ (e = [13] ∧ r.head? ≠ some 10) ∨ e = [13, 10] ∨ (e = [] ∧ r = [])) :
    (readMessage (txt "From " ++ x ++ e ++ r)).unixfrom = some (txt "From " ++ x) := by
  have hl : OneLine (txt "From " ++ x) := by
    intro c hc
    rcases List.mem_append.1 hc with hc | hc
    · have : ∀ c ∈ txt "From ", c ≠ 13 ∧ c ≠ 10 := by decide
      exact this c hc
    · exact h c hc
  have hp : ∀ t, (txt "From ").isPrefixOf (txt "From " ++ x ++ t) = true := by
    intro t
    rw [List.isPrefixOf_iff_prefix, List.append_assoc]
    exact List.prefix_append _ _
  have hcut : cutEnd (txt "From " ++ x ++ e) = txt "From " ++ x := by
    unfold cutEnd
    have hlast : ∀ c t, (txt "From " ++ x).reverse = c :: t → c ≠ 13 ∧ c ≠ 10 := by
      intro c t ht
      exact hl c (by rw [← List.mem_reverse, ht]; simp)
    cases hr : (txt "From " ++ x).reverse with
    | nil => exact absurd (List.reverse_eq_nil_iff.1 hr) (by simp [txt])
    | cons c t =>
      have hc := hlast c t hr
      have hb : txt "From " ++ x = (c :: t).reverse := by rw [← hr, List.reverse_reverse]
      rw [List.reverse_append, hr]
      rcases he with rfl | ⟨rfl, -⟩ | rfl | ⟨rfl, -⟩
      · show (match 10 :: c :: t with | 10 :: 13 :: r => r.reverse | 10 :: r => r.reverse | 13 :: r => r.reverse | _ => _) = _
        split
        · rename_i e; cases e; exact absurd rfl hc.1
        · rename_i e; cases e; exact hb.symm
        · rename_i e; cases e
        · rename_i h _; exact (h _ rfl).elim
      · exact hb.symm
      · exact hb.symm
      · show (match c :: t with | 10 :: 13 :: r => r.reverse | 10 :: r => r.reverse | 13 :: r => r.reverse | _ => _) = _
        split
        · rename_i e; cases e; exact absurd rfl hc.2
        · rename_i e; cases e; exact absurd rfl hc.2
        · rename_i e; cases e; exact absurd rfl hc.1
        · simp
  unfold readMessage
  rw [line_first hl (by simp [txt]) he, takeHeaders, if_pos (by unfold isHeaderLine; rw [hp]; rfl)]
  show (parseFields true [] ((txt "From " ++ x ++ e) :: _)).unixfrom = _
  rw [parseFields, if_neg (by simp [startsBlank, txt, isBlank]), if_pos (hp e), if_pos rfl, hcut]

example : (readMessage (txt "From me")).unixfrom = some (txt "From me") :=
  C116_unixfrom (txt "me") [] [] (by unfold OneLine; decide) (by simp)

end Sb.Props
