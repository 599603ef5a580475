import Verif.Props.TreeLocal

/-!
C124: a text whose headers are not followed by an empty line.  The first line that cannot
be a header belongs to the body, and nothing is lost.
-/

namespace Sb.Props
open Py Py.Text Sb.Mail Sb.Tokenize Sb.Strip

/-- A line that cannot be one of the headers, and is not empty. -/
def BodyLine (l : Txt) : Prop := OneLine l ∧ l ≠ [] ∧ ¬ HeadLine l ∧ ∀ v, l ≠ 58 :: v

theorem body_line {l : Txt} (h : BodyLine l) : isHeaderLine (l ++ [10]) = false := by
  obtain ⟨ho, hne, hh, hc⟩ := h
  by_contra hx
  rw [Bool.not_eq_false, isHeaderLine, Bool.or_eq_true, Bool.or_eq_true] at hx
  obtain ⟨c, r, rfl⟩ : ∃ c r, l = c :: r := by
    cases l with
    | nil => exact absurd rfl hne
    | cons c r => exact ⟨c, r, rfl⟩
  rcases hx with (hx | hx) | hx
  · refine hh ⟨ho, .inl ?_⟩
    rw [List.isPrefixOf_iff_prefix] at hx
    rcases List.prefix_concat_iff.1 hx with he | he
    · have := congrArg List.getLast? he
      rw [List.getLast?_concat] at this
      exact absurd this (by decide)
    · exact he
  · have key : ∀ m : Txt, ((m ++ [10]).dropWhile isFieldChar).head? = some 58 →
        ∃ n v, m = n ++ 58 :: v ∧ ∀ x ∈ n, isFieldChar x = true := by
      intro m
      induction m with
      | nil => intro h; exact absurd h (by decide)
      | cons a m ih =>
        intro h
        rw [List.cons_append, List.dropWhile_cons] at h
        by_cases ha : isFieldChar a = true
        · rw [if_pos ha] at h
          obtain ⟨n, v, rfl, hn⟩ := ih h
          refine ⟨a :: n, v, rfl, ?_⟩
          intro x hx
          rcases List.mem_cons.1 hx with rfl | hx
          · exact ha
          · exact hn x hx
        · rw [if_neg ha] at h
          simp only [List.head?_cons, Option.some.injEq] at h
          exact ⟨[], m, by rw [h]; rfl, by simp⟩
    obtain ⟨n, v, he, hn⟩ := key _ (eq_of_beq hx)
    rcases n with _ | ⟨a, n⟩
    · exact hc v he
    · refine hh ⟨ho, .inr (.inl ⟨a :: n, v, ⟨by simp, ?_⟩, he⟩)⟩
      first
        | exact hn
        | (intro x hx; have := hn x hx; simp only [isFieldChar, Bool.and_eq_true, decide_eq_true_eq, bne_iff_ne] at this; omega)
  · rw [startsBlank] at hx
    simp only [List.cons_append, List.head?_cons, Option.map_some, Option.getD_some] at hx
    refine hh ⟨ho, .inr (.inr ⟨c, r, ?_, rfl⟩)⟩
    simpa [Mail.isBlank] using hx

theorem takeHeaders_body {hl : List Txt} (h : ∀ l ∈ hl, HeadLine l) {l : Txt} (hb : BodyLine l) (x : List Txt) :
    takeHeaders (hl.map (· ++ [10]) ++ (l ++ [10]) :: x) = (hl.map (· ++ [10]), (l ++ [10]) :: x) := by
  have e : takeHeaders ((l ++ [10]) :: x) = ([], (l ++ [10]) :: x) := by
    rw [takeHeaders, body_line hb]
    obtain ⟨ho, hne, -, -⟩ := hb
    cases l with
    | nil => exact absurd rfl hne
    | cons c r =>
      have := ho c (by simp)
      simp [this.1, this.2]
  have hall : ∀ y ∈ hl.map (· ++ [10]), isHeaderLine y = true := by
    intro y hy
    have := takeHeaders_only h
    have hp := (takeHeaders_prefix (hl.map (· ++ [10]))).2
    rw [this] at hp
    exact hp y hy
  rw [takeHeaders_append hall, e]
  simp

/-- **C124.** If the empty line between the headers and the body is missing, the message is
read as if it were there. -/
theorem C124_missing_line (T : Types) (hT : T.ctype [] false = txt "text/plain") (hl : List Txt) (l r : Txt)
    (hh : ∀ x ∈ hl, HeadLine x) (hb : BodyLine l) :
    readMail T (lf hl ++ (l ++ 10 :: r)) = readMail T (lf hl ++ 10 :: (l ++ 10 :: r)) := by
  have hk : T.kind [] false ≠ .message := by
    rw [kind_text (main := txt "text") (sub := txt "plain") (by decide) (by rw [hT]; rfl)
      (by unfold PrintsAsText; decide)]
    simp
  have ho : ∀ x ∈ hl, OneLine x := fun x hx => (hh x hx).1
  unfold readMail
  rw [readLines_lfs ho, readLines_lfs ho, readLines_nl, readLines_lf hb.1]
  rw [depth_enough T hk _ (2 * (hl.map (· ++ [10]) ++ [10] :: (l ++ [10]) :: readLines r).length + 2) false _
    (by unfold enough; simp only [Bool.toNat_false]; omega)
    (by unfold enough; simp only [Bool.toNat_false, List.length_append, List.length_cons]; omega)]
  generalize 2 * (hl.map (· ++ [10]) ++ [10] :: (l ++ [10]) :: readLines r).length + 1 = n
  simp only [readTree, takeHeaders_body hh hb, takeHeaders_lf hh]

/-- **C124.** A text that begins with a line that cannot be a header has no headers, and is
a body from its beginning to its end. -/
theorem C124_no_headers (T : Types) (hT : T.ctype [] false = txt "text/plain") (l r : Txt) (hb : BodyLine l) :
    readMail T (l ++ 10 :: r) = .text [] (l ++ 10 :: r) := by
  have e : takeHeaders ((l ++ [10]) :: readLines r) = ([], (l ++ [10]) :: readLines r) :=
    takeHeaders_body (hl := []) (by simp) hb (readLines r)
  have hr : readMessage (l ++ 10 :: r) = ⟨none, [], l ++ 10 :: r⟩ := by
    unfold readMessage
    rw [readLines_lf hb.1, e]
    simp [parseFields, readLines_flatten]
  have := C124_plain T (l ++ 10 :: r) (txt "text") (txt "plain") (by decide) (by rw [hr, hT]; rfl)
    (by unfold PrintsAsText; decide)
  rw [this, hr]

theorem parseFields_fromLast {f : Txt} (hf : txt "From " <+: f) (first : Bool) (cur xs : List Txt)
    (h : first = true → xs ≠ []) :
    parseFields first cur (xs ++ [f]) =
      ⟨(parseFields first cur xs).unixfrom, (parseFields first cur xs).headers, [f]⟩ := by
  have hp : (txt "From ").isPrefixOf f = true := List.isPrefixOf_iff_prefix.2 hf
  have hs : startsBlank f = false := by
    obtain ⟨r, rfl⟩ := hf
    rfl
  induction xs generalizing first cur with
  | nil =>
    have hfi : first = false := by
      cases first with
      | false => rfl
      | true => exact absurd rfl (h rfl)
    subst hfi
    simp [parseFields, hs, hp]
  | cons l r ih =>
    have ih' := fun c => ih false c (by simp)
    rw [List.cons_append, parseFields, parseFields]
    by_cases hl : startsBlank l = true
    · rw [if_pos hl, if_pos hl, ih']
    · rw [if_neg hl, if_neg hl]
      by_cases hfr : (txt "From ").isPrefixOf l = true
      · cases first with
        | true => simp [hfr, ih']
        | false =>
          cases r with
          | nil => simp [hfr, parseFields, hs, hp]
          | cons a r =>
            have e := ih' []
            rw [List.cons_append] at e
            simp [hfr, e]
      · by_cases hc : l.head? = some 58
        · simp [hfr, hc, ih']
        · simp [hfr, hc, ih']

/-- **C124.** A line that begins with `From ` and is the last one of several header lines
is the first line of the body. -/
theorem C124_from_last (hl : List Txt) (f r : Txt) (hne : hl ≠ []) (hh : ∀ x ∈ hl, HeadLine x)
    (ho : OneLine f) (hf : txt "From " <+: f) :
    readMessage (lf hl ++ (f ++ 10 :: 10 :: r)) =
      ⟨(readMessage (lf hl)).unixfrom, (readMessage (lf hl)).headers, f ++ 10 :: r⟩ := by
  have h1 : ∀ x ∈ hl, OneLine x := fun x hx => (hh x hx).1
  have h2 : ∀ x ∈ hl ++ [f], HeadLine x := by
    intro x hx
    rcases List.mem_append.1 hx with hx | hx
    · exact hh x hx
    · rw [List.mem_singleton] at hx
      subst hx
      exact ⟨ho, .inl hf⟩
  have e1 : readLines (lf hl ++ (f ++ 10 :: 10 :: r)) = (hl ++ [f]).map (· ++ [10]) ++ [10] :: readLines r := by
    rw [readLines_lfs h1, readLines_lf ho, readLines_nl]
    simp
  have e2 : readLines (lf hl) = hl.map (· ++ [10]) := by
    have := readLines_lfs h1 []
    rw [List.append_nil] at this
    rw [this]
    simp [readLines]
  unfold readMessage
  rw [e1, e2, takeHeaders_lf h2, takeHeaders_only hh]
  simp only [List.map_append, List.map_cons, List.map_nil]
  rw [parseFields_fromLast (hf.trans (List.prefix_append _ _)) true [] _ (by simpa using hne)]
  simp [readLines_flatten]

/-! ### Boundary lines that follow one another, at any place -/

/-- The line ends the parts: two hyphens, the boundary, two hyphens and blanks. -/
def EndsParts (b l : Txt) : Prop := ∃ w, (∀ c ∈ w, c = 32 ∨ c = 9) ∧ l = txt "--" ++ b ++ txt "--" ++ w

theorem goes_on {b l : Txt} (hob : OneLine b) (ho : OneLine l) (h : ¬ EndsParts b l) :
    sepOf b (l ++ [10]) ≠ some true := by
  by_cases hs : Separates b l
  · obtain ⟨w, hw, rfl | rfl⟩ := hs
    · have : sepOf b (txt "--" ++ b ++ w ++ [10]) = some false := sep_blank b false hw
      rw [this]
      simp
    · exact absurd ⟨w, hw, rfl⟩ h
  · have := unsep_lf hob (ls := [l]) (by
      intro x hx
      rw [List.mem_singleton] at hx
      subst hx
      exact ⟨ho, hs⟩) (l ++ [10]) (by simp)
    rw [this]
    simp

theorem segments_double {b s d : Txt} {f : Bool} (hs : sepOf b s = some false) (hd : sepOf b d = some f)
    (xs : List Txt) (h : ∀ x ∈ xs, sepOf b x ≠ some true) (fresh : Bool) (r : List Txt) :
    segments b fresh (xs ++ s :: d :: r) = segments b fresh (xs ++ s :: r) := by
  have e : segments b true (d :: r) = segments b true r := by
    rw [segments.eq_2, hd]
    simp
  induction xs generalizing fresh with
  | nil =>
    rw [List.nil_append, List.nil_append, segments.eq_2 b fresh s (d :: r), segments.eq_2 b fresh s r, hs, e]
    simp
  | cons x xs ih =>
    have ih' := ih (fun y hy => h y (by simp [hy]))
    rw [List.cons_append, List.cons_append, segments.eq_2, segments.eq_2, ih', ih']
    cases hsx : sepOf b x with
    | none => rfl
    | some g =>
      cases g with
      | true => exact absurd hsx (h x (by simp))
      | false => simp

theorem preamble_double {b s d : Txt} {f : Bool} (hs : sepOf b s = some false) (hd : sepOf b d = some f)
    (xs : List Txt) (h : ∀ x ∈ xs, sepOf b x ≠ some true) (r : List Txt) :
    ∃ p r1 r2, preambleOf b (xs ++ s :: d :: r) = (p, some r1) ∧ preambleOf b (xs ++ s :: r) = (p, some r2) ∧
      segments b true r1 = segments b true r2 := by
  induction xs with
  | nil =>
    refine ⟨[], d :: r, r, ?_, ?_, ?_⟩
    · rw [List.nil_append, preambleOf, hs]
    · rw [List.nil_append, preambleOf, hs]
    · rw [segments.eq_2, hd]
      simp
  | cons x xs ih =>
    have hx := fun y hy => h y (List.mem_cons_of_mem x hy)
    obtain ⟨p, r1, r2, e1, e2, e3⟩ := ih hx
    rw [List.cons_append, List.cons_append, preambleOf, preambleOf]
    cases hsx : sepOf b x with
    | none => exact ⟨x :: p, r1, r2, by simp [e1], by simp [e2], e3⟩
    | some g =>
      cases g with
      | true => exact absurd hsx (h x (by simp))
      | false => exact ⟨[], _, _, rfl, rfl, segments_double hs hd xs hx true r⟩

/-- **C124.** A boundary line directly after another one makes no difference, whichever
parts and boundary lines come before it, as long as none of these ends the parts. -/
theorem C124_double_any (T : Types) (hT : T.ctype [] false = txt "text/plain") (hl pl : List Txt) (b w d r sub : Txt)
    (hh : ∀ l ∈ hl, HeadLine l) (hc : T.ctype (headOf hl) false = txt "multipart/" ++ sub)
    (hb : T.boundary (headOf hl) = some b) (hob : OneLine b)
    (hp : ∀ l ∈ pl, OneLine l ∧ ¬ EndsParts b l) (hw : ∀ c ∈ w, c = 32 ∨ c = 9) (hd : Separates b d) :
    readMail T (lf hl ++ 10 :: (lf pl ++ (txt "--" ++ b ++ w ++ 10 :: (d ++ 10 :: r)))) =
      readMail T (lf hl ++ 10 :: (lf pl ++ (txt "--" ++ b ++ w ++ 10 :: r))) := by
  have hs : sepOf b (txt "--" ++ b ++ w ++ [10]) = some false := sep_blank b false hw
  have ho : OneLine (txt "--" ++ b ++ w) := sep_oneLine hob ⟨w, hw, .inl rfl⟩
  obtain ⟨f, hf⟩ := sep_some_lf hd
  have hk : T.kind [] false ≠ .message := by
    rw [kind_text (main := txt "text") (sub := txt "plain") (by decide) (by rw [hT]; rfl)
      (by unfold PrintsAsText; decide)]
    simp
  have e1 : ∀ x, readLines (lf hl ++ 10 :: (lf pl ++ (txt "--" ++ b ++ w ++ 10 :: x))) =
      hl.map (· ++ [10]) ++ [10] :: (pl.map (· ++ [10]) ++ (txt "--" ++ b ++ w ++ [10]) :: readLines x) := by
    intro x
    rw [readLines_lfs (fun l hl => (hh l hl).1), readLines_nl, readLines_lfs (fun l hl => (hp l hl).1), readLines_lf ho]
  have hu : ∀ x ∈ backOf hl ++ pl.map (· ++ [10]), sepOf b x ≠ some true := by
    intro x hx
    rcases List.mem_append.1 hx with hx | hx
    · have := back_unsep b _ x hx
      rw [this]
      simp
    · obtain ⟨l, hl, rfl⟩ := List.mem_map.1 hx
      exact goes_on hob (hp l hl).1 (hp l hl).2
  rw [readMail, readMail, e1, e1, readLines_lf (sep_oneLine hob hd)]
  generalize hN : 2 * (hl.map (· ++ [10]) ++ [10] :: (pl.map (· ++ [10]) ++
    (txt "--" ++ b ++ w ++ [10]) :: readLines r)).length + 2 = N
  generalize hM : 2 * (hl.map (· ++ [10]) ++ [10] :: (pl.map (· ++ [10]) ++
    (txt "--" ++ b ++ w ++ [10]) :: (d ++ [10]) :: readLines r)).length + 2 = M
  have hNM : N ≤ M := by
    rw [← hN, ← hM]; simp only [List.length_append, List.length_cons]; omega
  rw [depth_enough T hk N M false (hl.map (· ++ [10]) ++ [10] :: (pl.map (· ++ [10]) ++
    (txt "--" ++ b ++ w ++ [10]) :: readLines r)) (by rw [enough, ← hN]; simp) (by
      refine le_trans ?_ hNM; rw [enough, ← hN]; simp)]
  obtain ⟨M', rfl⟩ : ∃ M', M = M' + 1 := ⟨M - 1, by omega⟩
  obtain ⟨p, r1, r2, h1, h2, h3⟩ := preamble_double hs hf _ hu (readLines r)
  rw [readTree_lf T _ _ hh, readTree_lf T _ _ hh, kind_multi hc, hb]
  simp only
  rw [← List.append_assoc, ← List.append_assoc, h1, h2]
  simp only
  rw [h3]

/-! ### The hypotheses can be met -/

theorem dear_body : BodyLine (txt "dear all: hello") := by
  refine ⟨by unfold OneLine; decide, by decide, ?_, ?_⟩
  · rintro ⟨-, h | ⟨n, v, hn, he⟩ | ⟨c, r, hc, he⟩⟩
    · exact absurd (List.isPrefixOf_iff_prefix.2 h) (by decide)
    · have hmem : ∀ n : Txt, ∀ m v : Txt, 58 ∉ m → 32 ∈ m → m ++ 58 :: txt " hello" = n ++ 58 :: v → 32 ∈ n ∨ 58 ∈ n := by
        intro n
        induction n with
        | nil =>
          intro m v h1 h2 h3
          cases m with
          | nil => cases h2
          | cons a m => exact absurd (List.cons.inj h3).1 (fun h => h1 (by simp [h]))
        | cons a n ih =>
          intro m v h1 h2 h3
          cases m with
          | nil => exact .inr (by simp [(List.cons.inj h3).1])
          | cons b m =>
            have h4 := (List.cons.inj h3).2
            have h5 := (List.cons.inj h3).1
            subst h5
            rcases List.mem_cons.1 h2 with h | h
            · exact .inl (by simp [h])
            · exact (ih m v (fun h => h1 (by simp [h])) h h4).imp (by intro h; simp [h]) (by intro h; simp [h])
      have hf := hn.2
      rcases hmem n (txt "dear all") v (by decide) (by decide) (by rw [← he]; decide) with h | h
      · have := hf 32 h; revert this; decide
      · have := hf 58 h; revert this; decide
    · have := (List.cons.inj he).1
      revert this
      rcases hc with rfl | rfl <;> decide
  · intro v h
    exact absurd (List.cons.inj h).1 (by decide)

/-- Without an empty line. -/
example : readMail plainTypes (lf [txt "Subject: hi"] ++ (txt "dear all: hello" ++ 10 :: txt "you")) =
    readMail plainTypes (lf [txt "Subject: hi"] ++ 10 :: (txt "dear all: hello" ++ 10 :: txt "you")) :=
  C124_missing_line plainTypes rfl _ _ _ (by
    intro x hx
    rw [List.mem_singleton] at hx
    subst hx
    exact ⟨by unfold OneLine; decide, .inr (.inl ⟨txt "Subject", txt " hi", ⟨by decide, by decide⟩, by decide⟩)⟩) dear_body

example : readMail plainTypes (txt "dear all: hello" ++ 10 :: txt "you") = .text [] (txt "dear all: hello\nyou") :=
  C124_no_headers plainTypes rfl _ _ dear_body

example : readMessage (lf [txt "Subject: hi"] ++ (txt "From me" ++ 10 :: 10 :: txt "you")) =
    ⟨none, (readMessage (lf [txt "Subject: hi"])).headers, txt "From me\nyou"⟩ :=
  C124_from_last [txt "Subject: hi"] (txt "From me") (txt "you") (by simp) (by
    intro x hx
    rw [List.mem_singleton] at hx
    subst hx
    exact ⟨by unfold OneLine; decide, .inr (.inl ⟨txt "Subject", txt " hi", ⟨by decide, by decide⟩, by decide⟩)⟩)
    (by unfold OneLine; decide) (List.isPrefixOf_iff_prefix.1 (by decide))

/-- After the first part. -/
example (r : Txt) : readMail mixedTypes (lf [txt "Content-Type: multipart/mixed; boundary=a"] ++
      10 :: (lf [txt "--a", [], txt "one"] ++ (txt "--a \n" ++ (txt "--a--" ++ 10 :: r)))) =
    readMail mixedTypes (lf [txt "Content-Type: multipart/mixed; boundary=a"] ++
      10 :: (lf [txt "--a", [], txt "one"] ++ (txt "--a \n" ++ r))) := by
  have hd : headOf [txt "Content-Type: multipart/mixed; boundary=a"] = mixedHeaders := by rfl
  refine C124_double_any mixedTypes (by decide) [txt "Content-Type: multipart/mixed; boundary=a"]
    [txt "--a", [], txt "one"] (txt "a") (txt " ") (txt "--a--") r (txt "mixed") ?_ (by rw [hd]; decide) (by rw [hd]; decide)
    (by unfold OneLine; decide) ?_ (by decide) ⟨[], by simp, .inr (by decide)⟩
  · intro x hx
    rw [List.mem_singleton] at hx
    subst hx
    exact ⟨by unfold OneLine; decide, .inr (.inl ⟨txt "Content-Type", txt " multipart/mixed; boundary=a",
      ⟨by decide, by decide⟩, by decide⟩)⟩
  · have hlen : ∀ l : Txt, l.length < 5 → ¬ EndsParts (txt "a") l := by
      rintro l hl ⟨w, -, rfl⟩
      have : (txt "--" ++ txt "a" ++ txt "--" ++ w).length = 5 + w.length := by
        rw [List.length_append]; rfl
      omega
    intro l hl
    simp only [List.mem_cons, List.not_mem_nil, or_false] at hl
    rcases hl with rfl | rfl | rfl
    · exact ⟨by unfold OneLine; decide, hlen _ (by decide)⟩
    · exact ⟨by unfold OneLine; decide, hlen _ (by decide)⟩
    · exact ⟨by unfold OneLine; decide, hlen _ (by decide)⟩

end Sb.Props
