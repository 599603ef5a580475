import Verif.Proof.Cdb

/-
Properties C32, C33: constant databases.  `Ascii`, `AsciiItems` and `fileSize` are
the hypotheses: characters below 128, and a database whose offsets fit in 32 bits.
-/

namespace Sb.Props
open Sb.Cdb Py

/-- Specification: ASCII text as bytes. -/
def asciiBytes (s : Str) : Bytes := s.map Char.toNat

/-- The hypotheses on the items: ASCII, and 32-bit offsets are enough
(fileSize = 2048 + the records, each with 8 bytes of lengths + 16 per item). -/
structure FitItems (items : List (Str × Str)) : Prop where
  ascii : ∀ x ∈ items, (∀ c ∈ x.1, c.toNat < 128) ∧ (∀ c ∈ x.2, c.toNat < 128)
  fits : 2048 + (items.map (fun x => 8 + x.1.length + x.2.length)).sum + 16 * items.length < 2 ^ 32

theorem dataSize_sum (items : List (Str × Str)) :
    dataSize items = (items.map (fun x => 8 + x.1.length + x.2.length)).sum := by
  induction items with
  | nil => rfl
  | cons x r ih => obtain ⟨k, v⟩ := x; simp only [dataSize, ih, List.map_cons, List.sum_cons]

theorem FitItems.size {items : List (Str × Str)} (h : FitItems items) : fileSize items < 4294967296 := by
  have := h.fits
  rw [← dataSize_sum] at this
  exact this

/-- The items of the examples: a duplicate key and an empty value. -/
def sampleItems : List (Str × Str) :=
  [("spam".toList, "1".toList), ("ham".toList, []), ("spam".toList, "2".toList)]

theorem sampleItems_fit : FitItems sampleItems where
  ascii := by
    intro x hx
    simp only [sampleItems, List.mem_cons, List.not_mem_nil, or_false] at hx
    rcases hx with rfl | rfl | rfl <;> exact ⟨by decide, by decide⟩
  fits := by decide

/-! ### C32 -/

/-- the header of a made file starts with the end of the data -/
theorem header_start (p : Nat) (l : List Nat) (hl : 0 < l.length) :
    ∃ n, Has (headerBytes p l) 0 (le32 p ++ le32 n) := by
  obtain ⟨n, r, rfl⟩ : ∃ n r, l = n :: r := by
    cases l with
    | nil => simp at hl
    | cons n r => exact ⟨n, r, rfl⟩
  exact ⟨n, has_left (le32 p ++ le32 n) (headerBytes (p + 8 * n) r)⟩

theorem range_counts_pos (t : Tables) : 0 < (slotCounts t (List.range 256)).length := by
  simp [slotCounts]

/-- **C32**, the full claim, for items of any characters. -/
def C32Claim : Prop := ∀ (f : Bytes) (items : List (Str × Str)), fileSize items < 2 ^ 32 →
  ∃ g, cdbMake f items = .ok g ∧ cdbItems g = .ok (items.map (fun x => (utf8 x.1, utf8 x.2)))

/-- **C32**, for ASCII items: making succeeds and iterating yields exactly the
items as bytes, in order, duplicates included, whatever the file held before. -/
theorem C32_iteration_partial (f : Bytes) (items : List (Str × Str)) (h : FitItems items) :
    ∃ g, cdbMake f items = .ok g ∧
      cdbItems g = .ok (items.map (fun x => (asciiBytes x.1, asciiBytes x.2))) := by
  have ha : AsciiItems items := h.ascii
  have hs := h.size
  have hs' : 2048 + dataSize items + 16 * items.length < 4294967296 := hs
  obtain ⟨rest, hm⟩ := cdbMake_eq f items hs
  refine ⟨_, hm, ?_⟩
  generalize hg : headerBytes (2048 + dataSize items) (slotCounts (tablesOf items) (List.range 256)) ++
        (dataBytes items ++ (tablesBytes (tablesOf items) (List.range 256) ++ rest)) = g
  obtain ⟨n, hn⟩ := header_start (2048 + dataSize items) _ (range_counts_pos (tablesOf items))
  have h0 : Has g 0 (le32 (2048 + dataSize items) ++ le32 n) := by
    rw [← hg]
    simpa using (has_left _ _).inner hn
  have hd : Has g 2048 (dataBytes items) := by
    refine ⟨_, tablesBytes (tablesOf items) (List.range 256) ++ rest, by rw [← hg, List.append_assoc], ?_⟩
    rw [headerBytes_length]; simp [slotCounts]
  unfold cdbItems
  rw [eod_made (by omega) h0]
  simp only [bind, Except.bind]
  rw [iterFrom_data g items 2048 ha hd (by omega)]
  congr 1
  apply List.map_congr_left
  intro x hx
  rw [utf8_ascii (ha x hx).1, utf8_ascii (ha x hx).2]
  rfl

example : ∃ g, cdbMake [] sampleItems = .ok g ∧
    cdbItems g = .ok [([115, 112, 97, 109], [49]), ([104, 97, 109], []), ([115, 112, 97, 109], [50])] :=
  C32_iteration_partial [] sampleItems sampleItems_fit

/-- **C32** beyond ASCII: if the first key is not ASCII, then iterating does not
yield the items: the first key comes back cut short. -/
theorem C32_non_ascii_cut (f : Bytes) (k v : Str) (rest : List (Str × Str)) (hk : ¬ Ascii k)
    (hs : fileSize ((k, v) :: rest) < 2 ^ 32) :
    ∃ g, cdbMake f ((k, v) :: rest) = .ok g ∧ ∀ out, cdbItems g = .ok out →
      (out.map (·.1)).head? = some ((utf8 k).take k.length) ∧ (utf8 k).take k.length ≠ utf8 k := by
  have hs' : 2048 + (8 + k.length + v.length + dataSize rest) + 16 * (rest.length + 1) < 4294967296 := hs
  obtain ⟨tl, hm⟩ := cdbMake_eq f ((k, v) :: rest) hs
  refine ⟨_, hm, ?_⟩
  generalize hg : headerBytes (2048 + dataSize ((k, v) :: rest)) (slotCounts (tablesOf ((k, v) :: rest)) (List.range 256)) ++
        (dataBytes ((k, v) :: rest) ++ (tablesBytes (tablesOf ((k, v) :: rest)) (List.range 256) ++ tl)) = g
  obtain ⟨n, hn⟩ := header_start (2048 + dataSize ((k, v) :: rest)) _ (range_counts_pos (tablesOf ((k, v) :: rest)))
  have h0 : Has g 0 (le32 (2048 + dataSize ((k, v) :: rest)) ++ le32 n) := by
    rw [← hg]
    simpa using (has_left _ _).inner hn
  have hd : Has g 2048 (dataBytes ((k, v) :: rest)) := by
    refine ⟨_, tablesBytes (tablesOf ((k, v) :: rest)) (List.range 256) ++ tl, by rw [← hg, List.append_assoc], ?_⟩
    rw [headerBytes_length]; simp [slotCounts]
  have hrec : Has g 2048 (recBytes k v) := by
    have := hd.inner (has_left (recBytes k v) (dataBytes rest))
    rwa [Nat.add_zero] at this
  have hhead : Has g 2048 (le32 k.length ++ le32 v.length) := by
    obtain ⟨A, B, h1, h2⟩ := hrec
    exact ⟨A, utf8 k ++ utf8 v ++ B, by rw [h1]; simp [recBytes], h2⟩
  have hul := utf8_length k
  have hgt : k.length < (utf8 k).length := by
    rcases Nat.lt_or_ge k.length (utf8 k).length with h | h
    · exact h
    · exact absurd (hul.2 (by omega)) hk
  have hkey : slice g (2048 + 8) k.length = (utf8 k).take k.length := by
    have h1 : Has (recBytes k v) 8 ((utf8 k).take k.length) :=
      ⟨le32 k.length ++ le32 v.length, (utf8 k).drop k.length ++ utf8 v, by
        rw [recBytes, List.append_assoc (le32 k.length ++ le32 v.length) ((utf8 k).take k.length),
          ← List.append_assoc ((utf8 k).take k.length), List.take_append_drop, List.append_assoc], rfl⟩
    exact (hrec.inner h1).slice' (by rw [List.length_take]; omega)
  intro out hout
  unfold cdbItems at hout
  rw [eod_made (by simp only [dataSize]; omega) h0] at hout
  simp only [bind, Except.bind] at hout
  rw [iterFrom_record g _ 2048 k v (by simp only [dataSize]; omega) (by omega) (by omega) hhead, hkey] at hout
  constructor
  · cases hi : iterFrom g (2048 + dataSize ((k, v) :: rest)) (2048 + 8 + k.length + v.length) with
    | error e => rw [hi] at hout; cases hout
    | ok r => rw [hi] at hout; cases hout; rfl
  · intro he
    have := congrArg List.length he
    rw [List.length_take] at this
    omega

/-- **C32** is false for items that are not ASCII. -/
theorem C32_claim_false : ¬ C32Claim := by
  intro h
  have hs : fileSize [(['é'], [])] < 2 ^ 32 := by decide
  obtain ⟨g, h1, h2⟩ := h [] [(['é'], [])] hs
  obtain ⟨g', h3, h4⟩ := C32_non_ascii_cut [] ['é'] [] [] (by
    intro ha; exact absurd (ha 'é' (by simp)) (by decide)) hs
  rw [h1] at h3
  cases h3
  obtain ⟨h5, h6⟩ := h4 _ h2
  simp only [List.map_cons, List.map_nil, List.head?_cons, Option.some.injEq] at h5
  exact h6 h5.symm

/-! ### C33 -/

/-- Specification: the values of a key, in order. -/
def valuesOf (items : List (Str × Str)) (key : Str) : List Bytes :=
  (items.filter (fun x => decide (x.1 = key))).map (fun x => asciiBytes x.2)

/-- Specification: what `n` searches in a row should give: the values one after
the other, then KeyError again and again. -/
def lookups (vals : List Bytes) : Nat → List (Except Err Bytes)
  | 0 => []
  | n + 1 =>
    match vals with
    | [] => .error .keyError :: lookups [] n
    | v :: r => .ok v :: lookups r n

theorem outcomes_lookups (n : Nat) : ∀ vals, outcomes n vals = lookups vals n := by
  induction n with
  | zero => intro vals; simp [outcomes, lookups]
  | succ n ih =>
    intro vals
    rw [outcomes_succ, ih]
    cases vals <;> rfl

/-- searching made files, for any kind of key that hashes like a str -/
theorem made_search {κ : Type} (ops : KeyOps κ) (f : Bytes) (items : List (Str × Str)) (h : FitItems items)
    (key : κ) (u : Nat) (hu : ops.hash key = .ok u) :
    ∃ g, cdbMake f items = .ok g ∧ ∀ n s, findMany ops g key n (findstart s) =
      lookups ((items.filter (fun x => decide (cdbHash x.1 = u))).filterMap (fun x =>
        if x.1.length = ops.len key ∧ ops.eq key (utf8 x.1) = true then some (utf8 x.2) else none)) n := by
  have ha : AsciiItems items := h.ascii
  have hs := h.size
  have hs' : 2048 + dataSize items + 16 * items.length < 4294967296 := hs
  obtain ⟨rest, hm⟩ := cdbMake_eq f items hs
  refine ⟨_, hm, ?_⟩
  generalize hg : headerBytes (2048 + dataSize items) (slotCounts (tablesOf items) (List.range 256)) ++
        (dataBytes items ++ (tablesBytes (tablesOf items) (List.range 256) ++ rest)) = g
  have hd : Has g 2048 (dataBytes items) := by
    refine ⟨_, tablesBytes (tablesOf items) (List.range 256) ++ rest, by rw [← hg, List.append_assoc], ?_⟩
    rw [headerBytes_length]; simp [slotCounts]
  have htest : ∀ x ∈ located 2048 items, testRecord ops g key x.1 = .ok
      (if x.2.1.length = ops.len key ∧ ops.eq key (utf8 x.2.1) = true then some (utf8 x.2.2) else none) := by
    intro x hx
    obtain ⟨q, h1, h2⟩ := has_record ha 2048 x hx
    have hp := located_pos items 2048 x hx
    have hin : x.2 ∈ items := by
      have := List.mem_map_of_mem (f := (·.2)) hx
      rwa [located_map] at this
    rw [h1]
    exact testRecord_made ops key (ha _ hin).1 (ha _ hin).2 (by omega) (by omega) (hd.inner h2)
  intro n s
  let res : Nat → Option Bytes := fun p => match testRecord ops g key p with | .ok r => r | .error _ => none
  have hres : ∀ x ∈ located 2048 items, res x.1 =
      if x.2.1.length = ops.len key ∧ ops.eq key (utf8 x.2.1) = true then some (utf8 x.2.2) else none := by
    intro x hx
    change (match testRecord ops g key x.1 with | .ok r => r | .error _ => none) = _
    rw [htest x hx]
  rw [search_made ops g items key u hs ha hu res hg.symm (fun x hx => by rw [htest x hx, hres x hx]) n s,
    outcomes_lookups]
  congr 1
  have h1 : ((located 2048 items).filter (fun x => decide (cdbHash x.2.1 = u))).filterMap (fun x => res x.1) =
      ((located 2048 items).filter (fun x => decide (cdbHash x.2.1 = u))).filterMap (fun x =>
        if x.2.1.length = ops.len key ∧ ops.eq key (utf8 x.2.1) = true then some (utf8 x.2.2) else none) := by
    apply List.filterMap_congr
    intro x hx
    exact hres x (List.mem_of_mem_filter hx)
  rw [h1]
  have h2 := located_map items 2048
  conv_rhs => rw [← h2]
  rw [List.filter_map, List.filterMap_map]
  rfl

/-- **C33**, the full claim: looking up the key of the first item gives its
value. -/
def C33Claim : Prop := ∀ (k v : Str) (rest : List (Str × Str)), FitItems ((k, v) :: rest) →
  ∃ g, cdbMake [] ((k, v) :: rest) = .ok g ∧ ∀ s, getItem strKey g k s = .ok (asciiBytes v)

/-- **C33**, the search with keys compared by content: repeated searches for a key
give all its values in order, then KeyError; collisions do no harm.  What is
missing for the full claim is the comparison of str with bytes. -/
theorem C33_search_by_content_partial (f : Bytes) (items : List (Str × Str)) (h : FitItems items) (key : Str) :
    ∃ g, cdbMake f items = .ok g ∧ ∀ n s,
      findMany contentKey g key n (findstart s) = lookups (valuesOf items key) n := by
  obtain ⟨g, h1, h2⟩ := made_search contentKey f items h key (cdbHash key) rfl
  refine ⟨g, h1, fun n s => ?_⟩
  rw [h2 n s]
  congr 1
  unfold valuesOf
  have ha : AsciiItems items := h.ascii
  clear h2 h1 h
  induction items with
  | nil => rfl
  | cons x r ih =>
    have hx := ha x (by simp)
    have ih := ih (fun y hy => ha y (by simp [hy]))
    have heq : (contentKey.eq key (utf8 x.1) = true) ↔ utf8 key = utf8 x.1 := by
      simp [contentKey]
    by_cases hk : x.1 = key
    · rw [List.filter_cons_of_pos (by simp [hk]), List.filter_cons_of_pos (by simp [hk]),
        List.filterMap_cons, List.map_cons, ih, if_pos ⟨by rw [hk]; rfl, heq.2 (by rw [hk])⟩,
        utf8_ascii hx.2]
      rfl
    · rw [List.filter_cons_of_neg (p := fun x : Str × Str => decide (x.1 = key)) (by simp [hk]), ← ih]
      by_cases hh : cdbHash x.1 = cdbHash key
      · rw [List.filter_cons_of_pos (by simp [hh]), List.filterMap_cons, if_neg]
        rintro ⟨h1, h2⟩
        exact hk (utf8_inj hx.1 h1.symm (heq.1 h2)).symm
      · rw [List.filter_cons_of_neg (by simp [hh])]

/-- **C33**, `__getitem__` with keys compared by content: the value of the first
item with that key, KeyError for an absent key. -/
theorem C33_getitem_by_content_partial (f : Bytes) (items : List (Str × Str)) (h : FitItems items) (key : Str) :
    ∃ g, cdbMake f items = .ok g ∧ ∀ s, getItem contentKey g key s =
      match items.find? (fun x => decide (x.1 = key)) with
      | some x => .ok (asciiBytes x.2)
      | none => .error .keyError := by
  obtain ⟨g, h1, h2⟩ := C33_search_by_content_partial f items h key
  refine ⟨g, h1, fun s => ?_⟩
  have h3 := h2 1 s
  rw [← List.head?_filter]
  unfold valuesOf at h3
  cases hf : items.filter (fun x => decide (x.1 = key)) with
  | nil =>
    rw [hf] at h3
    simp only [findMany, List.map_nil, lookups, List.cons.injEq, and_true] at h3
    exact h3
  | cons x r =>
    rw [hf] at h3
    simp only [findMany, List.map_cons, lookups, List.cons.injEq, and_true] at h3
    exact h3

/-- The sample database: both values of the duplicate key are found in order. -/
example : ∃ g, cdbMake [] sampleItems = .ok g ∧ ∀ s,
    findMany contentKey g "spam".toList 3 (findstart s) = [.ok [49], .ok [50], .error .keyError] := by
  obtain ⟨g, h1, h2⟩ := C33_search_by_content_partial [] sampleItems sampleItems_fit "spam".toList
  refine ⟨g, h1, fun s => ?_⟩
  rw [h2 3 s]
  have : valuesOf sampleItems "spam".toList = [[49], [50]] := by decide
  rw [this]
  rfl

/-- **C33** as the code is on Python 3: looking up a str raises KeyError for every
database and every key. -/
theorem C33_str_lookup_fails (f : Bytes) (items : List (Str × Str)) (h : FitItems items) (key : Str) :
    ∃ g, cdbMake f items = .ok g ∧ ∀ s, getItem strKey g key s = .error .keyError ∧
      ∀ d, Cdb.get strKey g key d s = .ok d := by
  obtain ⟨g, h1, h2⟩ := made_search strKey f items h key (cdbHash key) rfl
  refine ⟨g, h1, fun s => ?_⟩
  have h3 := h2 1 s
  have h4 : (items.filter (fun x => decide (cdbHash x.1 = cdbHash key))).filterMap (fun x =>
        if x.1.length = strKey.len key ∧ strKey.eq key (utf8 x.1) = true then some (utf8 x.2) else none) = [] := by
    rw [List.filterMap_eq_nil_iff]
    intro x _
    rw [if_neg]
    rintro ⟨-, h⟩
    cases h
  rw [h4] at h3
  simp only [findMany, lookups, List.cons.injEq, and_true] at h3
  have h5 : getItem strKey g key s = .error .keyError := h3
  refine ⟨h5, fun d => ?_⟩
  unfold Cdb.get
  simp only [h5]

/-- **C33**, as the code is: a bytes key cannot be looked up either, on any file. -/
theorem C33_bytes_lookup_fails (g : Bytes) (key : Bytes) (hk : key ≠ []) (s : Search) :
    getItem bytesKey g key s = .error .typeError := by
  have : findInit bytesKey g key (findstart s) = .error .typeError := by
    unfold findInit
    have : bytesKey.hash key = .error .typeError := if_neg hk
    rw [this]
    rfl
  unfold getItem findnext
  have h0 : (findstart s).loop = 0 := rfl
  rw [if_pos h0, this]

/-- **C33** is false for the code as it is. -/
theorem C33_claim_false : ¬ C33Claim := by
  intro h
  have hf : FitItems [(['a'], ['b'])] := ⟨by
    intro x hx
    simp only [List.mem_singleton] at hx
    subst hx
    exact ⟨by decide, by decide⟩, by decide⟩
  obtain ⟨g, h1, h2⟩ := h ['a'] ['b'] [] hf
  obtain ⟨g', h3, h4⟩ := C33_str_lookup_fails [] [(['a'], ['b'])] hf ['a']
  rw [h1] at h3
  cases h3
  have := (h4 ⟨0, 0, 0, 0, 0⟩).1
  rw [h2] at this
  cases this

/-- **C33**, the hash function is the one of the cdb format: it starts with 5381, and each
character multiplies it by 33, modulo 2^32, and is added without carry. -/
theorem C33_hash : cdbHash [] = 5381 ∧
    ∀ (s : Str) (c : Char), cdbHash (s ++ [c]) = (33 * cdbHash s % 2 ^ 32) ^^^ c.toNat := by
  refine ⟨rfl, fun s c => ?_⟩
  unfold cdbHash
  generalize 5381 = h
  induction s generalizing h with
  | nil =>
    show ((h + h <<< 5) &&& 0xffffffff) ^^^ c.toNat = (33 * h % 2 ^ 32) ^^^ c.toNat
    rw [show (0xffffffff : Nat) = 2 ^ 32 - 1 from rfl, Nat.and_two_pow_sub_one_eq_mod, Nat.shiftLeft_eq]
    congr 2
    omega
  | cons d s ih => exact ih _

example : cdbHash ['a', 'b'] = (33 * ((33 * 5381 % 2 ^ 32) ^^^ 97) % 2 ^ 32) ^^^ 98 := by
  rw [show ['a', 'b'] = ([] ++ ['a']) ++ ['b'] from rfl, C33_hash.2, C33_hash.2, C33_hash.1]; rfl

/-- **C33**, making terminates: at each insertion the table has a free slot, so the
`while` loop of cdb_make ends on one. -/
theorem C33_insert_finds_free_slot (es es' : List Entry) (e : Entry) :
    ∃ n, n < (es.foldl insertEntry (List.replicate (2 * (es ++ e :: es').length) none)).length ∧
      (es.foldl insertEntry (List.replicate (2 * (es ++ e :: es').length) none))[n]? = some none ∧
      (es ++ [e]).foldl insertEntry (List.replicate (2 * (es ++ e :: es').length) none) =
        (es.foldl insertEntry (List.replicate (2 * (es ++ e :: es').length) none)).set n (some e) := by
  generalize hN : 2 * (es ++ e :: es').length = N
  have hN' : es.length < N := by rw [← hN]; simp; omega
  have hp := probed_foldl es (List.replicate N none) [] (probed_empty N) (by simp; omega)
  simp only [List.nil_append] at hp
  have hlen : (es.foldl insertEntry (List.replicate N none)).length = N := by
    rw [foldl_insert_length, List.length_replicate]
  obtain ⟨n, h1, h2, h3, -⟩ := insertEntry_spec _ e (by rw [hp.count, hlen]; exact hN')
  refine ⟨n, h1, ?_, ?_⟩
  · have := List.getElem?_eq_getElem h1
    rw [this] at h2 ⊢
    simp at h2
    rw [h2]
  · rw [List.foldl_append, List.foldl_cons, List.foldl_nil, h3]

end Sb.Props
