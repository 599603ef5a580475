import Verif.Props.Cdb

/-
Property C95: reading a constant database that was cut short or not finished, and
the lists of keys, values and items.
-/

set_option linter.unusedSectionVars false

namespace Sb.Props
open Sb.Cdb Py

/-- Specification: what reading in order gives of records of which only the first
`room` bytes are there: the records before the cut as they are; the record with the
cut without what is missing of its key and value; an error at a record whose
lengths are not all there. -/
def cutRead : List (Str × Str) → (room : Nat) → List (Bytes × Bytes) × Option Err
  | [], _ => ([], none)
  | (k, v) :: rest, room =>
    if room < 8 then ([], some .structError)
    else
      let r := cutRead rest (room - 8 - k.length - v.length)
      (((asciiBytes k).take (room - 8), (asciiBytes v).take (room - 8 - k.length)) :: r.1, r.2)

/-! ### keys, values, items -/

theorem iterGen_map {α β : Type} (g : α → β) (fn : Bytes → Bytes → α) (f : Bytes) (e len : Nat) :
    iterGen (fun k v => g (fn k v)) f e len =
      ((iterGen fn f e len).1.map g, (iterGen fn f e len).2) := by
  induction hn : e - len using Nat.strong_induction_on generalizing len with
  | _ n ih =>
    rw [iterGen, iterGen]
    by_cases hl : len < e
    · rw [if_pos hl, if_pos hl]
      cases h1 : uint32Unpack (slice f len 4) with
      | error x => rfl
      | ok klen =>
        cases h2 : uint32Unpack ((slice f len 8).drop 4) with
        | error x => rfl
        | ok vlen =>
          dsimp only
          rw [ih (e - (len + 8 + klen + vlen)) (by omega) _ rfl]
          rfl
    · rw [if_neg hl, if_neg hl]; rfl

/-- **C95**, the three lists agree, for every file: `keys()` and `values()` are the
first and second components of `items()`, and raise when it does. -/
theorem C95_lists_agree (f : Bytes) (e : Nat) :
    (∀ l, items f e = .ok l → keys f e = .ok (l.map (·.1)) ∧ values f e = .ok (l.map (·.2))) ∧
    (∀ x, items f e = .error x → keys f e = .error x ∧ values f e = .error x) := by
  have hk : iterKeys f e = ((iterItems f e).1.map (·.1), (iterItems f e).2) :=
    iterGen_map (fun x : Bytes × Bytes => x.1) Prod.mk f e 2048
  have hv : iterValues f e = ((iterItems f e).1.map (·.2), (iterItems f e).2) :=
    iterGen_map (fun x : Bytes × Bytes => x.2) Prod.mk f e 2048
  unfold items keys values collect
  rw [hk, hv]
  cases h : (iterItems f e).2 with
  | none =>
    refine ⟨?_, ?_⟩
    · intro l hl
      cases hl
      exact ⟨rfl, rfl⟩
    · intro x hx
      cases hx
  | some y =>
    refine ⟨?_, ?_⟩
    · intro l hl
      cases hl
    · intro x hx
      cases hx
      exact ⟨rfl, rfl⟩

theorem iterGen_error {α : Type} (fn : Bytes → Bytes → α) (f : Bytes) (e len : Nat) :
    ∀ x, (iterGen fn f e len).2 = some x → x = .structError := by
  induction hn : e - len using Nat.strong_induction_on generalizing len with
  | _ n ih =>
    intro x
    rw [iterGen]
    by_cases hl : len < e
    · rw [if_pos hl]
      cases h1 : uint32Unpack (slice f len 4) with
      | error y => intro h; cases h; rfl
      | ok klen =>
        cases h2 : uint32Unpack ((slice f len 8).drop 4) with
        | error y => intro h; cases h; rfl
        | ok vlen => exact ih (e - (len + 8 + klen + vlen)) (by omega) _ rfl x
    · rw [if_neg hl]; intro h; cases h

theorem unpack_error (b : Bytes) (x : Err) (h : uint32Unpack b = .error x) : x = .structError := by
  unfold uint32Unpack at h
  split at h <;> cases h
  rfl

theorem findLoop_error (f : Bytes) (key : Str) : ∀ (fuel : Nat) (s : Search) (x : Err),
    (findLoop contentKey f key fuel s).1 = .error x → x = .structError ∨ x = .keyError
  | 0, s, x, h => by cases h; exact Or.inr rfl
  | fuel + 1, s, x, h => by
    rw [findLoop] at h
    cases h1 : uint32Unpack ((slice f s.kpos 8).drop 4) with
    | error y => rw [h1] at h; cases h; exact Or.inl (unpack_error _ _ h1)
    | ok pos =>
      rw [h1] at h
      dsimp only at h
      by_cases h0 : pos = 0
      · rw [if_pos h0] at h; cases h; exact Or.inr rfl
      · rw [if_neg h0] at h
        cases h2 : uint32Unpack ((slice f s.kpos 8).take 4) with
        | error y => rw [h2] at h; cases h; exact Or.inl (unpack_error _ _ h2)
        | ok u =>
          rw [h2] at h
          dsimp only at h
          by_cases hu : u = s.khash
          · rw [if_pos hu] at h
            cases h3 : testRecord contentKey f key pos with
            | error y =>
              rw [h3] at h
              cases h
              left
              unfold testRecord at h3
              simp only [bind, Except.bind] at h3
              cases h4 : uint32Unpack ((slice f pos 8).take 4) with
              | error z => rw [h4] at h3; cases h3; exact unpack_error _ _ h4
              | ok a =>
                rw [h4] at h3
                dsimp only at h3
                split at h3
                · split at h3
                  · cases h5 : uint32Unpack ((slice f pos 8).drop 4) with
                    | error z => rw [h5] at h3; cases h3; exact unpack_error _ _ h5
                    | ok b => rw [h5] at h3; cases h3
                  · cases h3
                · cases h3
            | ok o =>
              rw [h3] at h
              cases o with
              | some v => cases h
              | none => exact findLoop_error f key fuel _ x h
          · rw [if_neg hu] at h
            exact findLoop_error f key fuel _ x h

/-- **C95**, any file at all: opening raises only ValueError (an empty file) or
struct.error, reading in order only struct.error, and looking up a key by content only
struct.error or KeyError. -/
theorem C95_any_file (f : Bytes) :
    (∀ x, cdbOpen f = .error x → (x = .valueError ∧ f = []) ∨ (x = .structError ∧ f.length < 4)) ∧
    (∀ e x, items f e = .error x → x = .structError) ∧
    (∀ key s x, getItem contentKey f key s = .error x → x = .structError ∨ x = .keyError) := by
  refine ⟨?_, ?_, ?_⟩
  · intro x hx
    unfold cdbOpen at hx
    by_cases h0 : f = []
    · rw [if_pos h0] at hx; cases hx; exact Or.inl ⟨rfl, h0⟩
    · rw [if_neg h0] at hx
      right
      refine ⟨unpack_error _ _ hx, ?_⟩
      by_contra hl
      obtain ⟨a, b, c, d, r, rfl⟩ : ∃ a b c d r, f = a :: b :: c :: d :: r := by
        match f, hl with
        | a :: b :: c :: d :: r, _ => exact ⟨a, b, c, d, r, rfl⟩
        | [], hl => exact absurd (by simp) hl
        | [_], hl => exact absurd (by simp) hl
        | [_, _], hl => exact absurd (by simp) hl
        | [_, _, _], hl => exact absurd (by simp) hl
      cases hx
  · intro e x hx
    unfold items collect at hx
    cases h : (iterItems f e).2 with
    | none => rw [h] at hx; cases hx
    | some y => rw [h] at hx; cases hx; exact iterGen_error _ _ _ _ _ h
  · intro key s x hx
    unfold getItem findnext at hx
    rw [if_pos (by rfl)] at hx
    cases h : findInit contentKey f key (findstart s) with
    | ok s' => rw [h] at hx; exact findLoop_error f key _ _ x hx
    | error y =>
      rw [h] at hx
      cases hx
      unfold findInit at h
      simp only [contentKey, bind, Except.bind] at h
      split at h
      · rename_i z h1
        cases h; exact Or.inl (unpack_error _ _ h1)
      · split at h
        · cases h; exact Or.inr rfl
        · split at h
          · rename_i z h1
            cases h; exact Or.inl (unpack_error _ _ h1)
          · cases h

example : ∃ f : Bytes, cdbOpen f = .error .structError := ⟨[1, 2], rfl⟩

/-! ### a database cut short -/

theorem slice_take (f : Bytes) (n pos m : Nat) : slice (f.take n) pos m = (slice f pos m).take (n - pos) := by
  unfold slice
  rw [List.drop_take, List.take_take, List.take_take, Nat.min_comm]

theorem unpack_short {b : Bytes} (h : b.length < 4) : uint32Unpack b = .error .structError := by
  match b, h with
  | [], _ => rfl
  | [_], _ => rfl
  | [_, _], _ => rfl
  | [_, _, _], _ => rfl
  | _ :: _ :: _ :: _ :: _, h => simp at h; omega

theorem iterGen_cut (f : Bytes) (n : Nat) : ∀ (items : List (Str × Str)) (pos : Nat), AsciiItems items →
    Has f pos (dataBytes items) → pos + dataSize items < 4294967296 →
    iterGen Prod.mk (f.take n) (pos + dataSize items) pos = cutRead items (n - pos)
  | [], pos, _, _, _ => by rw [iterGen, if_neg (by simp [dataSize])]; rfl
  | (k, v) :: r, pos, ha, hf, hs => by
    obtain ⟨hk, hv⟩ := ha (k, v) (by simp)
    have hs' : pos + (8 + k.length + v.length + dataSize r) < 4294967296 := hs
    have hrec : Has f pos (recBytes k v) := by
      have := hf.inner (has_left (recBytes k v) (dataBytes r))
      rwa [Nat.add_zero] at this
    have hrest : Has f (pos + (8 + k.length + v.length)) (dataBytes r) := by
      have := hf.inner (has_right (recBytes k v) (dataBytes r))
      rwa [recBytes_length hk hv] at this
    have hkk : Has f (pos + 8) (utf8 k) := by
      have : Has (recBytes k v) 8 (utf8 k) := ⟨le32 k.length ++ le32 v.length, utf8 v, rfl, rfl⟩
      exact hrec.inner this
    have hvv : Has f (pos + (8 + k.length)) (utf8 v) := by
      have : Has (recBytes k v) (8 + k.length) (utf8 v) :=
        ⟨le32 k.length ++ le32 v.length ++ utf8 k, [], by simp [recBytes], by
          simp [le32_length, utf8_length_ascii hk]; omega⟩
      exact hrec.inner this
    have hh : Has f pos (le32 k.length ++ le32 v.length) := by
      obtain ⟨A, B, h1, h2⟩ := hrec
      exact ⟨A, utf8 k ++ utf8 v ++ B, by rw [h1]; simp [recBytes], h2⟩
    have h8 : slice f pos 8 = le32 k.length ++ le32 v.length := hh.slice' rfl
    have h4 : slice f pos 4 = le32 k.length := by rw [← take4_slice8, h8]; rfl
    rw [iterGen, if_pos (by simp only [dataSize]; omega), slice_take, slice_take, h4, h8, cutRead]
    by_cases hn : n - pos < 8
    · rw [if_pos hn]
      have h5 : uint32Unpack (((le32 k.length ++ le32 v.length).take (n - pos)).drop 4) = .error .structError :=
        unpack_short (by simp [le32_length]; omega)
      rw [h5]
      cases uint32Unpack ((le32 k.length).take (n - pos)) <;> rfl
    · rw [if_neg hn, List.take_of_length_le (by rw [le32_length]; omega),
        List.take_of_length_le (by simp [le32_length]; omega)]
      have : (le32 k.length ++ le32 v.length).drop 4 = le32 v.length := rfl
      rw [this, unpack_le32 (by omega), unpack_le32 (by omega)]
      dsimp only
      have ih := iterGen_cut f n r (pos + (8 + k.length + v.length)) (fun x hx => ha x (by simp [hx])) hrest
        (by omega)
      rw [show pos + dataSize ((k, v) :: r) = pos + (8 + k.length + v.length) + dataSize r by
        simp only [dataSize]; omega,
        show pos + 8 + k.length + v.length = pos + (8 + k.length + v.length) by omega, ih,
        slice_take, slice_take, hkk.slice' (utf8_length_ascii hk),
        show pos + 8 + k.length = pos + (8 + k.length) by omega, hvv.slice' (utf8_length_ascii hv),
        utf8_ascii hk, utf8_ascii hv,
        show n - pos - 8 - k.length - v.length = n - (pos + (8 + k.length + v.length)) by omega,
        show n - pos - 8 = n - (pos + 8) by omega,
        show n - (pos + 8) - k.length = n - (pos + (8 + k.length)) by omega]
      rfl

/-- **C95**, a database cut short, exactly: opening the first `n` bytes of a made
file fails if `n < 4` and succeeds otherwise, with the same end of data as for the
whole file, and reading in order gives what is left of the records after the 2048
bytes of the header. -/
theorem C95_truncated_partial (f : Bytes) (l : List (Str × Str)) (h : FitItems l) (n : Nat) :
    ∃ g, cdbMake f l = .ok g ∧
      (n = 0 → cdbOpen (g.take n) = .error .valueError) ∧
      (0 < n → n < 4 → cdbOpen (g.take n) = .error .structError) ∧
      (4 ≤ n → ∃ e, cdbOpen (g.take n) = .ok e ∧ iterItems (g.take n) e = cutRead l (n - 2048)) := by
  have ha : AsciiItems l := h.ascii
  have hs := h.size
  have hs' : 2048 + dataSize l + 16 * l.length < 4294967296 := hs
  obtain ⟨rest, hm⟩ := cdbMake_eq f l hs
  refine ⟨_, hm, ?_⟩
  generalize hg : headerBytes (2048 + dataSize l) (slotCounts (tablesOf l) (List.range 256)) ++
        (dataBytes l ++ (tablesBytes (tablesOf l) (List.range 256) ++ rest)) = g
  obtain ⟨m, hm'⟩ := header_start (2048 + dataSize l) _ (range_counts_pos (tablesOf l))
  have h0 : Has g 0 (le32 (2048 + dataSize l) ++ le32 m) := by
    rw [← hg]
    simpa using (has_left _ _).inner hm'
  have hd : Has g 2048 (dataBytes l) := by
    refine ⟨_, tablesBytes (tablesOf l) (List.range 256) ++ rest, by rw [← hg, List.append_assoc], ?_⟩
    rw [headerBytes_length]; simp [slotCounts]
  have h4 : g.take 4 = le32 (2048 + dataSize l) := by
    have h8 : slice g 0 8 = le32 (2048 + dataSize l) ++ le32 m := h0.slice' rfl
    have : slice g 0 4 = le32 (2048 + dataSize l) := by rw [← take4_slice8, h8]; rfl
    simpa [slice] using this
  have hlen : 4 ≤ g.length := by
    have := congrArg List.length h4
    rw [List.length_take, le32_length] at this
    omega
  refine ⟨?_, ?_, ?_⟩
  · rintro rfl
    rw [List.take_zero]; rfl
  · intro h1 h2
    unfold cdbOpen
    rw [if_neg (by
      intro h3
      have := congrArg List.length h3
      simp only [List.length_take, List.length_nil] at this
      omega)]
    exact unpack_short (by simp only [List.length_take]; omega)
  · intro h1
    refine ⟨2048 + dataSize l, ?_, ?_⟩
    · unfold cdbOpen
      rw [if_neg (by
        intro h3
        have := congrArg List.length h3
        simp only [List.length_take, List.length_nil] at this
        omega)]
      unfold eod
      rw [List.take_take, Nat.min_eq_left h1, h4, unpack_le32 (by omega)]
    · exact iterGen_cut g n l 2048 ha hd (by omega)

/-- Specification: the bytes of the records. -/
def recordBytes (l : List (Str × Str)) : Nat := (l.map (fun x => 8 + x.1.length + x.2.length)).sum

theorem cutRead_append (a b : List (Str × Str)) : ∀ room, recordBytes a ≤ room →
    cutRead (a ++ b) room =
      (a.map (fun x => (asciiBytes x.1, asciiBytes x.2)) ++ (cutRead b (room - recordBytes a)).1,
        (cutRead b (room - recordBytes a)).2) := by
  induction a with
  | nil => intro room _; simp [recordBytes]
  | cons x r ih =>
    obtain ⟨k, v⟩ := x
    intro room hr
    have e : recordBytes ((k, v) :: r) = 8 + k.length + v.length + recordBytes r := rfl
    rw [e] at hr ⊢
    rw [List.cons_append, cutRead, if_neg (by omega)]
    dsimp only
    rw [ih _ (by omega), List.take_of_length_le (by simp only [asciiBytes, List.length_map]; omega),
      List.take_of_length_le (by simp only [asciiBytes, List.length_map]; omega),
      show room - 8 - k.length - v.length - recordBytes r = room - (8 + k.length + v.length + recordBytes r) by omega]
    rfl

/-- **C95**, what a cut leaves alone: the records that lie before the cut are read
unchanged, first, and in order. -/
theorem C95_records_before_cut (f : Bytes) (a b : List (Str × Str)) (h : FitItems (a ++ b)) (n : Nat)
    (hn : 2048 + recordBytes a ≤ n) :
    ∃ g e, cdbMake f (a ++ b) = .ok g ∧ cdbOpen (g.take n) = .ok e ∧
      a.map (fun x => (asciiBytes x.1, asciiBytes x.2)) <+: (iterItems (g.take n) e).1 := by
  obtain ⟨g, h1, -, -, h4⟩ := C95_truncated_partial f (a ++ b) h n
  obtain ⟨e, h5, h6⟩ := h4 (by omega)
  refine ⟨g, e, h1, h5, ?_⟩
  rw [h6, cutRead_append a b _ (by omega)]
  exact List.prefix_append _ _

theorem cutRead_fine (l : List (Str × Str)) : ∀ room,
    ((cutRead l room).2 = none ↔
      ∀ k v, l.getLast? = some (k, v) → recordBytes l ≤ room + (k.length + v.length)) := by
  induction l with
  | nil => intro room; simp [cutRead]
  | cons x r ih =>
    obtain ⟨k, v⟩ := x
    intro room
    have e : recordBytes ((k, v) :: r) = 8 + k.length + v.length + recordBytes r := rfl
    rw [cutRead, e]
    by_cases hr : room < 8
    · rw [if_pos hr]
      constructor
      · intro h; cases h
      · intro h
        exfalso
        rcases List.eq_nil_or_concat' r with rfl | ⟨r', ⟨k', v'⟩, rfl⟩
        · have := h k v rfl
          simp only [recordBytes, List.map_nil, List.sum_nil] at this
          omega
        · have := h k' v' (by rw [← List.cons_append, List.getLast?_append]; rfl)
          simp only [recordBytes, List.map_append, List.sum_append, List.map_cons, List.map_nil,
            List.sum_cons, List.sum_nil] at this
          omega
    · rw [if_neg hr]
      dsimp only
      rw [ih]
      rcases List.eq_nil_or_concat' r with rfl | ⟨r', ⟨k', v'⟩, rfl⟩
      · simp only [List.getLast?_nil, reduceCtorEq, false_implies, implies_true, true_iff]
        intro k' v' h
        simp only [List.getLast?_singleton, Option.some.injEq, Prod.mk.injEq] at h
        obtain ⟨rfl, rfl⟩ := h
        simp only [recordBytes, List.map_nil, List.sum_nil]
        omega
      · have e2 : ((k, v) :: (r' ++ [(k', v')])).getLast? = some (k', v') := by
          rw [← List.cons_append, List.getLast?_append]; rfl
        rw [e2]
        have e3 : (r' ++ [(k', v')]).getLast? = some (k', v') := by simp
        rw [e3]
        constructor
        · intro h a b hab
          have h' := h a b hab
          cases hab
          have : recordBytes (r' ++ [(k', v')]) = recordBytes r' + (8 + k'.length + v'.length) := by
            simp [recordBytes]
          omega
        · intro h a b hab
          have h' := h a b hab
          cases hab
          omega

/-- **C95**, which cuts are noticed: reading all records of a database cut to `n`
bytes raises unless at most the key and value of the last record are concerned. -/
theorem C95_noticed_iff (f : Bytes) (l : List (Str × Str)) (h : FitItems l) (n : Nat) (hn : 4 ≤ n) :
    ∃ g e, cdbMake f l = .ok g ∧ cdbOpen (g.take n) = .ok e ∧
      ((∃ out, items (g.take n) e = .ok out) ↔
        ∀ k v, l.getLast? = some (k, v) → recordBytes l ≤ (n - 2048) + (k.length + v.length)) := by
  obtain ⟨g, h1, -, -, h4⟩ := C95_truncated_partial f l h n
  obtain ⟨e, h5, h6⟩ := h4 hn
  refine ⟨g, e, h1, h5, ?_⟩
  rw [← cutRead_fine, ← h6]
  unfold items collect
  cases (iterItems (g.take n) e).2 with
  | none => simp
  | some x => simp

/-- **C95**, the full claim: a database cut short anywhere is not read as a whole
one: opening it or reading its items raises. -/
def C95Claim : Prop := ∀ (l : List (Str × Str)) (g : Bytes) (n : Nat), FitItems l → l ≠ [] →
  cdbMake [] l = .ok g → n < g.length →
  (∃ x, cdbOpen (g.take n) = .error x) ∨ ∃ e x, cdbOpen (g.take n) = .ok e ∧ items (g.take n) e = .error x

/-- **C95** is false for the code as it is: of `spam: 123` cut after the first
digit the value is read as `1`. -/
theorem C95_claim_false : ¬ C95Claim := by
  intro hc
  have hf : FitItems [("spam".toList, "123".toList)] := ⟨by
    intro x hx
    simp only [List.mem_singleton] at hx
    subst hx
    exact ⟨by decide, by decide⟩, by decide⟩
  obtain ⟨g, h1, -, -, h4⟩ := C95_truncated_partial [] [("spam".toList, "123".toList)] hf 2061
  obtain ⟨e, h5, h6⟩ := h4 (by decide)
  have hlen : 2061 < g.length := by
    obtain ⟨rest, hm⟩ := cdbMake_eq [] [("spam".toList, "123".toList)] hf.size
    rw [hm] at h1
    cases h1
    simp only [List.length_append, headerBytes_length]
    have : (dataBytes [("spam".toList, "123".toList)]).length = 15 := by decide
    simp only [slotCounts, List.length_map, List.length_range, this]
    omega
  rcases hc _ g 2061 hf (by simp) h1 hlen with ⟨x, hx⟩ | ⟨e', x, h7, h8⟩
  · rw [h5] at hx; cases hx
  · rw [h5] at h7
    cases h7
    unfold items collect at h8
    rw [h6] at h8
    have : (cutRead [("spam".toList, "123".toList)] (2061 - 2048)).2 = none := by decide
    rw [this] at h8
    cases h8

example : cutRead [("spam".toList, "123".toList)] (2061 - 2048) = ([([115, 112, 97, 109], [49])], none) := by
  decide

/-! ### a database whose making was interrupted -/

theorem slice_zeros (rest : Bytes) (pos : Nat) (n : Nat) (h : pos + 8 ≤ 2048) (hp : pos + 8 ≤ n) :
    slice ((List.replicate 2048 0 ++ rest).take n) pos 8 = List.replicate 8 0 := by
  rw [slice_take]
  have : slice (List.replicate 2048 0 ++ rest) pos 8 = List.replicate 8 0 := by
    have hE : Has (List.replicate 2048 0 ++ rest) pos (List.replicate 8 0) := by
      refine ⟨List.replicate pos 0, List.replicate (2048 - pos - 8) 0 ++ rest, ?_, List.length_replicate⟩
      rw [← List.append_assoc, List.replicate_append_replicate, List.replicate_append_replicate]
      congr 2
      omega
    exact hE.slice' List.length_replicate
  rw [this, List.take_of_length_le]
  simp only [List.length_replicate]; omega

/-- **C95**, an interrupted `cdb_make` of at least one item: if only the header is not
yet written to a new file, or the file ends anywhere after the (empty) header, the database reads as
an empty one: there are no items and every key is missing, without any other sign. -/
theorem C95_unfinished_reads_empty (l : List (Str × Str)) (h : FitItems l) (hne : l ≠ []) (n : Nat) (hn : 2048 ≤ n) :
    ∃ g, cdbMakeBody [] l = .ok g ∧ cdbOpen (g.take n) = .ok 0 ∧ items (g.take n) 0 = .ok [] ∧
      ∀ key s, getItem contentKey (g.take n) key s = .error .keyError := by
  have hs := h.size
  have h' : 2048 + dataSize l + 16 * l.length < 4294967296 := hs
  obtain ⟨t', h1, h2⟩ := writeItems_eq l 2048 [] (fun _ => []) (by omega)
  have ht : t' = tablesOf l := by
    funext j; rw [h2 j]; rfl
  subst ht
  have h3 := writeTables_eq (tablesOf l)
    (fun i e he => entriesOf_fits hs e (List.mem_of_mem_filter he)) (List.range 256)
    (2048 + dataSize l) [] [] (by rw [slotCounts_sum]; omega)
  refine ⟨List.replicate 2048 0 ++ (dataBytes l ++ tablesBytes (tablesOf l) (List.range 256)), ?_, ?_, ?_, ?_⟩
  · unfold cdbMakeBody
    rw [h1]
    simp only [bind, Except.bind]
    rw [h3]
    have hb : dataBytes l ++ tablesBytes (tablesOf l) (List.range 256) ≠ [] := by
      obtain ⟨⟨k, v⟩, r, rfl⟩ := List.exists_cons_of_ne_nil hne
      simp [dataBytes, recBytes, le32]
    simp only [List.nil_append, writeAt, List.take_nil, List.length_nil, Nat.sub_zero, List.drop_nil,
      List.append_nil, if_neg hb]
  · generalize dataBytes l ++ tablesBytes (tablesOf l) (List.range 256) = body
    unfold cdbOpen eod
    have h8 := slice_zeros body 0 n (by omega) (by omega)
    have h4 : ((List.replicate 2048 0 ++ body).take n).take 4 = [0, 0, 0, 0] := by
      have h9 : (slice ((List.replicate 2048 0 ++ body).take n) 0 8).take 4 = [0, 0, 0, 0] := by rw [h8]; rfl
      rw [take4_slice8] at h9
      exact h9
    rw [if_neg (by intro h0; rw [h0] at h4; cases h4), h4]
    rfl
  · unfold items collect iterItems
    rw [iterGen, if_neg (by omega)]
  · intro key s
    generalize dataBytes l ++ tablesBytes (tablesOf l) (List.range 256) = body
    have hb : slice ((List.replicate 2048 0 ++ body).take n) ((cdbHash key <<< 3) &&& 2047) 8 = List.replicate 8 0 := by
      have : (cdbHash key <<< 3) &&& 2047 + 0 = 8 * (cdbHash key % 256) := and2047 _
      rw [Nat.add_zero] at this
      rw [this]
      exact slice_zeros body _ n (by omega) (by omega)
    have hi : findInit contentKey ((List.replicate 2048 0 ++ body).take n) key (findstart s) = .error .keyError := by
      unfold findInit
      simp only [contentKey, bind, Except.bind]
      rw [hb]
      rfl
    unfold getItem findnext
    rw [if_pos (by rfl), hi]

example : ∃ g, cdbMakeBody [] sampleItems = .ok g ∧ cdbOpen (g.take 3000) = .ok 0 := by
  obtain ⟨g, h1, h2, -⟩ := C95_unfinished_reads_empty sampleItems sampleItems_fit (by simp [sampleItems]) 3000 (by omega)
  exact ⟨g, h1, h2⟩

/-- Without items nothing is written before the header: the new file stays empty and
cannot be opened. -/
theorem C95_unfinished_no_items : cdbMakeBody [] [] = .ok [] ∧ cdbOpen [] = .error .valueError := by
  refine ⟨?_, rfl⟩
  obtain ⟨t', h1, h2⟩ := writeItems_eq [] 2048 [] (fun _ => []) (by decide)
  have ht : t' = tablesOf [] := by
    funext j; rw [h2 j]; rfl
  subst ht
  have h3 := writeTables_eq (tablesOf [])
    (fun i e he => by cases he) (List.range 256)
    (2048 + dataSize []) [] [] (by rw [slotCounts_sum]; decide)
  have hb : tablesBytes (tablesOf []) (List.range 256) = [] := by
    rw [List.eq_nil_iff_length_eq_zero, tablesBytes_length, slotCounts_sum]
    rfl
  unfold cdbMakeBody
  rw [h1]
  simp only [bind, Except.bind]
  rw [h3, hb]
  rfl

/-- The finished file is the unfinished one with the header written over its first
2048 bytes: only that last write makes the records reachable. -/
theorem C95_header_is_last (f : Bytes) (l : List (Str × Str)) (h : FitItems l) :
    ∃ g b hd, cdbMake f l = .ok g ∧ cdbMakeBody f l = .ok b ∧ hd.length = 2048 ∧ g = hd ++ b.drop 2048 := by
  have hs := h.size
  have h' : 2048 + dataSize l + 16 * l.length < 4294967296 := hs
  obtain ⟨t', h1, h2⟩ := writeItems_eq l 2048 [] (fun _ => []) (by omega)
  have ht : t' = tablesOf l := by
    funext j; rw [h2 j]; rfl
  subst ht
  have h3 := writeTables_eq (tablesOf l)
    (fun i e he => entriesOf_fits hs e (List.mem_of_mem_filter he)) (List.range 256)
    (2048 + dataSize l) [] [] (by rw [slotCounts_sum]; omega)
  have hl : (headerBytes (2048 + dataSize l) (slotCounts (tablesOf l) (List.range 256))).length = 2048 := by
    rw [headerBytes_length]; simp [slotCounts]
  have hb : cdbMakeBody f l = .ok (writeAt f 2048 ([] ++ dataBytes l ++
      ([] ++ tablesBytes (tablesOf l) (List.range 256)))) := by
    unfold cdbMakeBody
    rw [h1]
    simp only [bind, Except.bind]
    rw [h3]
  refine ⟨_, _, headerBytes (2048 + dataSize l) (slotCounts (tablesOf l) (List.range 256)), ?_, hb, hl, rfl⟩
  unfold cdbMake
  rw [h1]
  simp only [bind, Except.bind]
  rw [h3]
  dsimp only
  congr 1
  generalize writeAt f 2048 _ = b
  simp only [List.nil_append]
  generalize headerBytes (2048 + dataSize l) (slotCounts (tablesOf l) (List.range 256)) = hd at *
  have hne : hd ≠ [] := by intro h0; rw [h0] at hl; cases hl
  simp only [writeAt, if_neg hne, List.take_zero, List.nil_append, Nat.zero_sub, List.replicate_zero,
    Nat.zero_add, hl]

end Sb.Props
