import Verif.Model.Cdb
import Mathlib.Data.List.Basic
import Mathlib.Tactic.Ring
import Mathlib.Tactic.NormNum
import Mathlib.Data.Nat.ModEq

/-
Lemmas about Model/Cdb.lean: closed forms of what cdb_make writes, and the
open-addressing invariant of its hash tables.
-/

namespace Sb.Cdb
open Py

/-! ### numbers -/

theorem le32_length (n : Nat) : (le32 n).length = 4 := rfl

theorem unpack_le32 {n : Nat} (h : n < 4294967296) : uint32Unpack (le32 n) = .ok n := by
  simp only [le32, uint32Unpack]
  congr 1
  omega

theorem pack_ok {n : Nat} (h : n < 4294967296) : uint32Pack n = .ok (le32 n) := if_pos h

theorem char_lt (c : Char) : c.toNat < 2 ^ 32 := by
  exact c.val.toNat_lt

theorem hashFrom_lt (s : Str) : ∀ h, h < 2 ^ 32 → hashFrom h s < 2 ^ 32 := by
  induction s with
  | nil => intro h hh; exact hh
  | cons c t ih =>
    intro h _
    apply ih
    apply Nat.xor_lt_two_pow _ (char_lt c)
    have : (0xffffffff : Nat) = 2 ^ 32 - 1 := by norm_num
    rw [this, Nat.and_two_pow_sub_one_eq_mod]
    exact Nat.mod_lt _ (by norm_num)

theorem cdbHash_lt (s : Str) : cdbHash s < 4294967296 := hashFrom_lt s _ (by decide)

theorem and255 (h : Nat) : h &&& 255 = h % 256 := by
  have : (255 : Nat) = 2 ^ 8 - 1 := by norm_num
  rw [this, Nat.and_two_pow_sub_one_eq_mod]

theorem shl3 (h : Nat) : h <<< 3 = 8 * h := by rw [Nat.shiftLeft_eq]; omega

theorem and2047 (h : Nat) : (h <<< 3) &&& 2047 = 8 * (h % 256) := by
  have : (2047 : Nat) = 2 ^ 11 - 1 := by norm_num
  rw [this, Nat.and_two_pow_sub_one_eq_mod, shl3]
  omega

theorem shr8 (h : Nat) : h >>> 8 = h / 256 := Nat.shiftRight_eq_div_pow h 8

/-! ### text -/

/-- ASCII text -/
def Ascii (s : Str) : Prop := ∀ c ∈ s, c.toNat < 128

theorem utf8_cons (c : Char) (s : Str) : utf8 (c :: s) = utf8Char c ++ utf8 s := rfl

theorem utf8_ascii {s : Str} (h : Ascii s) : utf8 s = s.map Char.toNat := by
  induction s with
  | nil => rfl
  | cons c t ih =>
    have hc : c.toNat < 0x80 := h c (by simp)
    rw [utf8_cons, ih (fun d hd => h d (by simp [hd])), utf8Char]
    simp [hc]

theorem utf8Char_length (c : Char) : 1 ≤ (utf8Char c).length ∧
    ((utf8Char c).length = 1 → c.toNat < 128) := by
  unfold utf8Char
  dsimp only
  by_cases h1 : c.toNat < 0x80
  · rw [if_pos h1]; simp; exact h1
  · rw [if_neg h1]
    by_cases h2 : c.toNat < 0x800
    · rw [if_pos h2]; simp
    · rw [if_neg h2]
      by_cases h3 : c.toNat < 0x10000
      · rw [if_pos h3]; simp
      · rw [if_neg h3]; simp

theorem utf8_length (s : Str) : s.length ≤ (utf8 s).length ∧ ((utf8 s).length = s.length → Ascii s) := by
  induction s with
  | nil => exact ⟨le_rfl, fun _ _ h => by cases h⟩
  | cons c t ih =>
    have hc := utf8Char_length c
    rw [utf8_cons, List.length_append, List.length_cons]
    refine ⟨by omega, fun h d hd => ?_⟩
    rcases List.mem_cons.1 hd with rfl | hd
    · exact hc.2 (by omega)
    · exact ih.2 (by omega) d hd

theorem utf8_length_ascii {s : Str} (h : Ascii s) : (utf8 s).length = s.length := by
  rw [utf8_ascii h, List.length_map]

theorem toNat_inj {a b : Char} (h : a.toNat = b.toNat) : a = b := by
  apply Char.ext
  exact UInt32.toNat_inj.1 h

theorem utf8_inj {s t : Str} (ht : Ascii t) (hl : s.length = t.length) (h : utf8 s = utf8 t) : s = t := by
  have hs : Ascii s := by
    apply (utf8_length s).2
    rw [h, hl, utf8_length_ascii ht]
  rw [utf8_ascii hs, utf8_ascii ht] at h
  exact List.map_injective_iff.2 (fun _ _ => toNat_inj) h

/-! ### slices -/

theorem slice_mid (a b c : Bytes) : slice (a ++ b ++ c) a.length b.length = b := by
  unfold slice
  rw [List.append_assoc, List.drop_left, List.take_left]

theorem slice_of {f a b c : Bytes} {pos n : Nat} (hf : f = a ++ b ++ c) (hp : a.length = pos)
    (hn : b.length = n) : slice f pos n = b := by
  subst hf hp hn
  exact slice_mid a b c

/-! ### closed form of the data -/

/-- positions of the items: (position, key, value) -/
def located : Nat → List (Str × Str) → List (Nat × Str × Str)
  | _, [] => []
  | pos, (k, v) :: rest => (pos, k, v) :: located (pos + 8 + k.length + v.length) rest

/-- entries of all tables in order -/
def entriesOf (pos : Nat) (items : List (Str × Str)) : List Entry :=
  (located pos items).map (fun x => (cdbHash x.2.1, x.1))

/-- room taken by the items, as computed by cdb_make -/
def dataSize : List (Str × Str) → Nat
  | [] => 0
  | (k, v) :: rest => 8 + k.length + v.length + dataSize rest

/-- bytes of a record -/
def recBytes (k v : Str) : Bytes := le32 k.length ++ le32 v.length ++ utf8 k ++ utf8 v

/-- bytes of the records -/
def dataBytes (items : List (Str × Str)) : Bytes := items.flatMap (fun x => recBytes x.1 x.2)

theorem writeItems_eq (items : List (Str × Str)) : ∀ (pos : Nat) (out : Bytes) (t : Tables),
    dataSize items < 4294967296 →
    ∃ t', writeItems items pos out t = .ok (pos + dataSize items, out ++ dataBytes items, t') ∧
      ∀ j, t' j = t j ++ (entriesOf pos items).filter (fun e => decide (e.1 % 256 = j)) := by
  induction items with
  | nil =>
    intro pos out t _
    refine ⟨t, ?_, ?_⟩
    · simp [writeItems, dataSize, dataBytes]
    · intro j; simp [entriesOf, located]
  | cons x rest ih =>
    obtain ⟨k, v⟩ := x
    intro pos out t hs
    have hs' : 8 + k.length + v.length + dataSize rest < 4294967296 := hs
    obtain ⟨t', h1, h2⟩ := ih (pos + 8 + k.length + v.length)
      (out ++ le32 k.length ++ le32 v.length ++ utf8 k ++ utf8 v)
      (t.add (cdbHash k &&& 255) (cdbHash k, pos)) (by omega)
    refine ⟨t', ?_, ?_⟩
    · simp only [writeItems]
      rw [pack_ok (by omega), pack_ok (by omega)]
      simp only [bind, Except.bind]
      rw [h1]
      simp only [dataSize, dataBytes, List.flatMap_cons, recBytes, List.append_assoc]
      congr 2
      omega
    · intro j
      rw [h2 j]
      simp only [Tables.add, and255, entriesOf, located, List.map_cons, List.filter_cons]
      by_cases hj : cdbHash k % 256 = j
      · subst hj; simp
      · have hj' : ¬ j = cdbHash k % 256 := fun e => hj e.symm
        simp [hj, hj']

/-! ### closed form of the tables -/

def slotBytes (s : Option Entry) : Bytes := le32 (s.getD (0, 0)).1 ++ le32 (s.getD (0, 0)).2

def tableBytes (t : List (Option Entry)) : Bytes := t.flatMap slotBytes

theorem slotBytes_length (s : Option Entry) : (slotBytes s).length = 8 := rfl

theorem tableBytes_length (t : List (Option Entry)) : (tableBytes t).length = 8 * t.length := by
  induction t with
  | nil => rfl
  | cons s r ih =>
    have : tableBytes (s :: r) = slotBytes s ++ tableBytes r := rfl
    rw [this, List.length_append, slotBytes_length, ih, List.length_cons]; omega

def SlotFits (s : Option Entry) : Prop :=
  ∀ e, s = some e → e.1 < 4294967296 ∧ 0 < e.2 ∧ e.2 < 4294967296

theorem packSlot_ok {s : Option Entry} (h : SlotFits s) : packSlot s = .ok (slotBytes s) := by
  unfold packSlot slotBytes
  cases s with
  | none => rfl
  | some e =>
    obtain ⟨h1, -, h2⟩ := h e rfl
    simp only [Option.getD_some]
    rw [pack_ok h1, pack_ok h2]
    rfl

theorem packTable_ok : ∀ {t : List (Option Entry)}, (∀ s ∈ t, SlotFits s) → packTable t = .ok (tableBytes t)
  | [], _ => rfl
  | s :: r, h => by
    simp only [packTable]
    rw [packSlot_ok (h s (by simp)), packTable_ok (fun x hx => h x (by simp [hx]))]
    rfl

/-- header bytes for tables with given numbers of slots -/
def headerBytes : Nat → List Nat → Bytes
  | _, [] => []
  | pos, n :: rest => le32 pos ++ le32 n ++ headerBytes (pos + 8 * n) rest

theorem headerBytes_length : ∀ (pos : Nat) (l : List Nat), (headerBytes pos l).length = 8 * l.length
  | _, [] => rfl
  | pos, n :: rest => by
    simp only [headerBytes, List.length_append, le32_length, headerBytes_length, List.length_cons]
    omega

theorem insertEntry_length (t : List (Option Entry)) (e : Entry) : (insertEntry t e).length = t.length := by
  unfold insertEntry; rw [List.length_set]

theorem foldl_insert_length (es : List Entry) : ∀ t : List (Option Entry),
    (es.foldl insertEntry t).length = t.length := by
  induction es with
  | nil => intro t; rfl
  | cons e r ih => intro t; rw [List.foldl_cons, ih, insertEntry_length]

theorem makeTable_length (es : List Entry) : (makeTable es).length = 2 * es.length := by
  unfold makeTable; rw [foldl_insert_length, List.length_replicate]

theorem foldl_insert_mem (es : List Entry) : ∀ (t : List (Option Entry)) (s : Option Entry),
    s ∈ es.foldl insertEntry t → s ∈ t ∨ ∃ e ∈ es, s = some e := by
  induction es with
  | nil => intro t s h; exact .inl h
  | cons e r ih =>
    intro t s h
    rw [List.foldl_cons] at h
    rcases ih _ s h with h | ⟨e', he', h⟩
    · rcases List.mem_or_eq_of_mem_set h with h | h
      · exact .inl h
      · exact .inr ⟨e, by simp, h⟩
    · exact .inr ⟨e', by simp [he'], h⟩

theorem makeTable_mem {es : List Entry} {s : Option Entry} (h : s ∈ makeTable es) :
    s = none ∨ ∃ e ∈ es, s = some e := by
  rcases foldl_insert_mem es _ s h with h | h
  · exact .inl (List.eq_of_mem_replicate h)
  · exact .inr h

def EntryFits (e : Entry) : Prop := e.1 < 4294967296 ∧ 0 < e.2 ∧ e.2 < 4294967296

theorem makeTable_fits {es : List Entry} (h : ∀ e ∈ es, EntryFits e) : ∀ s ∈ makeTable es, SlotFits s := by
  intro s hs e he
  rcases makeTable_mem hs with h' | ⟨e', he', h'⟩
  · rw [h'] at he; cases he
  · rw [h'] at he; cases he; exact h e he'

def slotCounts (t : Tables) (is : List Nat) : List Nat := is.map (fun i => 2 * (t i).length)

def tablesBytes (t : Tables) (is : List Nat) : Bytes := is.flatMap (fun i => tableBytes (makeTable (t i)))

theorem writeTables_eq (t : Tables) (hf : ∀ i, ∀ e ∈ t i, EntryFits e) (is : List Nat) :
    ∀ (pos : Nat) (out final : Bytes), pos + 8 * (slotCounts t is).sum < 4294967296 →
    writeTables t is pos out final =
      .ok (out ++ tablesBytes t is, final ++ headerBytes pos (slotCounts t is)) := by
  induction is with
  | nil => intro pos out final _; simp [writeTables, tablesBytes, slotCounts, headerBytes]
  | cons i r ih =>
    intro pos out final h
    have h' : pos + 8 * (2 * (t i).length + (slotCounts t r).sum) < 4294967296 := h
    simp only [writeTables]
    rw [pack_ok (by omega), pack_ok (by omega), packTable_ok (makeTable_fits (hf i))]
    simp only [bind, Except.bind]
    rw [ih _ _ _ (by omega)]
    simp [tablesBytes, slotCounts, headerBytes]

theorem tablesBytes_length (t : Tables) (is : List Nat) :
    (tablesBytes t is).length = 8 * (slotCounts t is).sum := by
  induction is with
  | nil => rfl
  | cons i r ih =>
    have : tablesBytes t (i :: r) = tableBytes (makeTable (t i)) ++ tablesBytes t r := rfl
    rw [this, List.length_append, tableBytes_length, makeTable_length, ih]
    simp [slotCounts]; omega

/-- the sizes of the tables add up to the number of entries -/
theorem sum_filter_mod (es : List Entry) :
    ((List.range 256).map (fun i => (es.filter (fun e => decide (e.1 % 256 = i))).length)).sum = es.length := by
  have key : ∀ (n : Nat) (es : List Entry), (∀ e ∈ es, e.1 % 256 < n) →
      ((List.range n).map (fun i => (es.filter (fun e => decide (e.1 % 256 = i))).length)).sum = es.length := by
    intro n
    induction n with
    | zero =>
      intro es h
      cases es with
      | nil => rfl
      | cons e r => exact absurd (h e (by simp)) (by omega)
    | succ n ih =>
      intro es h
      rw [List.range_succ, List.map_append, List.sum_append]
      have h1 := ih (es.filter (fun e => decide (e.1 % 256 ≠ n))) (by
        intro e he
        have := List.mem_filter.1 he
        have h3 := h e this.1
        have h4 : e.1 % 256 ≠ n := by simpa using this.2
        omega)
      have h2 : ∀ i ∈ List.range n,
          ((es.filter (fun e => decide (e.1 % 256 ≠ n))).filter (fun e => decide (e.1 % 256 = i))).length =
          (es.filter (fun e => decide (e.1 % 256 = i))).length := by
        intro i hi
        rw [List.filter_filter]
        congr 1
        apply List.filter_congr
        intro e _
        have : i < n := List.mem_range.1 hi
        by_cases he : e.1 % 256 = i
        · simp [he]; omega
        · simp [he]
      rw [List.map_congr_left h2] at h1
      rw [h1]
      simp only [List.map_cons, List.map_nil, List.sum_cons, List.sum_nil, Nat.add_zero]
      clear h1 h2 ih h
      induction es with
      | nil => rfl
      | cons e r ih =>
        by_cases he : e.1 % 256 = n
        · simp [he] at ih ⊢; omega
        · simp [he] at ih ⊢; omega
  exact key 256 es (fun e _ => Nat.mod_lt _ (by norm_num))

theorem located_pos (items : List (Str × Str)) : ∀ (pos : Nat), ∀ x ∈ located pos items,
    pos ≤ x.1 ∧ x.1 + 8 + x.2.1.length + x.2.2.length ≤ pos + dataSize items := by
  induction items with
  | nil => intro pos x h; cases h
  | cons y r ih =>
    obtain ⟨k, v⟩ := y
    intro pos x h
    rcases List.mem_cons.1 h with rfl | h
    · simp only [dataSize]; omega
    · have := ih _ x h
      simp only [dataSize]; omega

theorem located_length (items : List (Str × Str)) : ∀ pos, (located pos items).length = items.length := by
  induction items with
  | nil => intro pos; rfl
  | cons y r ih => intro pos; simp only [located, List.length_cons, ih]

theorem located_map (items : List (Str × Str)) : ∀ pos, (located pos items).map (·.2) = items := by
  induction items with
  | nil => intro pos; rfl
  | cons y r ih => intro pos; simp only [located, List.map_cons, ih]

/-- size of the whole file, as computed by cdb_make -/
def fileSize (items : List (Str × Str)) : Nat := 2048 + dataSize items + 16 * items.length

/-- the tables of a list of items -/
def tablesOf (items : List (Str × Str)) : Tables :=
  fun j => (entriesOf 2048 items).filter (fun e => decide (e.1 % 256 = j))

theorem entriesOf_fits {items : List (Str × Str)} (h : fileSize items < 4294967296) :
    ∀ e ∈ entriesOf 2048 items, EntryFits e := by
  intro e he
  obtain ⟨x, hx, rfl⟩ := List.mem_map.1 he
  have := located_pos items 2048 x hx
  have h' : 2048 + dataSize items + 16 * items.length < 4294967296 := h
  exact ⟨cdbHash_lt _, by omega, by omega⟩

theorem slotCounts_sum (items : List (Str × Str)) :
    (slotCounts (tablesOf items) (List.range 256)).sum = 2 * items.length := by
  have h1 := sum_filter_mod (entriesOf 2048 items)
  have h2 : (entriesOf 2048 items).length = items.length := by
    unfold entriesOf; rw [List.length_map, located_length]
  rw [h2] at h1
  rw [← h1]
  unfold slotCounts tablesOf
  induction (List.range 256) with
  | nil => rfl
  | cons i r ih => simp only [List.map_cons, List.sum_cons, ih]; omega

/-- header, data and tables of a made file -/
theorem cdbMake_eq (f : Bytes) (items : List (Str × Str)) (h : fileSize items < 4294967296) :
    ∃ rest, cdbMake f items = .ok
      (headerBytes (2048 + dataSize items) (slotCounts (tablesOf items) (List.range 256)) ++
        (dataBytes items ++ (tablesBytes (tablesOf items) (List.range 256) ++ rest))) := by
  have h' : 2048 + dataSize items + 16 * items.length < 4294967296 := h
  obtain ⟨t', h1, h2⟩ := writeItems_eq items 2048 [] (fun _ => []) (by omega)
  have ht : t' = tablesOf items := by
    funext j; rw [h2 j]; rfl
  subst ht
  have h3 := writeTables_eq (tablesOf items)
    (fun i e he => entriesOf_fits h e (List.mem_of_mem_filter he)) (List.range 256)
    (2048 + dataSize items) [] [] (by rw [slotCounts_sum]; omega)
  unfold cdbMake
  rw [h1]
  simp only [bind, Except.bind]
  rw [h3]
  simp only [List.nil_append]
  generalize hb : dataBytes items ++ tablesBytes (tablesOf items) (List.range 256) = body
  generalize hh : headerBytes (2048 + dataSize items) (slotCounts (tablesOf items) (List.range 256)) = hd
  have hl : hd.length = 2048 := by
    rw [← hh, headerBytes_length]; simp [slotCounts]
  refine ⟨f.drop (2048 + body.length), ?_⟩
  congr 1
  rw [← List.append_assoc (dataBytes items), hb]
  have hne : hd ≠ [] := by intro h0; rw [h0] at hl; cases hl
  unfold writeAt
  rw [if_neg hne, hl]
  by_cases hb0 : body = []
  · subst hb0
    simp
  rw [if_neg hb0]
  simp only [List.take_zero, List.nil_append, Nat.zero_sub, List.replicate_zero, Nat.zero_add]
  congr 1
  have : (f.take 2048 ++ List.replicate (2048 - f.length) 0).length = 2048 := by
    simp only [List.length_append, List.length_take, List.length_replicate]; omega
  rw [List.append_assoc, List.drop_append_of_le_length (by omega)]
  rw [List.drop_of_length_le (by omega)]
  simp

/-! ### open addressing -/

section probing
variable {N : Nat}

/-- slot `j` steps after `st` -/
def at_ (T : List (Option Entry)) (st j : Nat) : Option Entry := (T[(st + j) % T.length]?).join

/-- the entries met from step `j` on until a free slot -/
def walk (T : List (Option Entry)) (st : Nat) : (fuel j : Nat) → List Entry
  | 0, _ => []
  | fuel + 1, j =>
    match at_ T st j with
    | none => []
    | some e => e :: walk T st fuel (j + 1)

/-- where the search for a hash starts -/
def startSlot (T : List (Option Entry)) (u : Nat) : Nat := (u / 256) % T.length

/-- first free step found by `probe` -/
theorem probe_spec (T : List (Option Entry)) (st : Nat) (hN : 0 < T.length) :
    ∀ (fuel j d : Nat), at_ T st (j + d) = none → d < fuel →
    ∃ i, i ≤ d ∧ probe T fuel ((st + j) % T.length) = (st + (j + i)) % T.length ∧
      at_ T st (j + i) = none ∧ ∀ k, k < i → at_ T st (j + k) ≠ none := by
  intro fuel
  induction fuel with
  | zero => intro j d _ h; omega
  | succ fuel ih =>
    intro j d hd hlt
    by_cases h0 : at_ T st j = none
    · refine ⟨0, by omega, ?_, by simpa using h0, fun k hk => by omega⟩
      simp only [probe]
      split
      · rename_i e he
        simp [at_, he] at h0
      · simp
    · have hd0 : d ≠ 0 := by rintro rfl; exact h0 (by simpa using hd)
      obtain ⟨i, hi, h1, h2, h3⟩ := ih (j + 1) (d - 1) (by
        rw [show j + 1 + (d - 1) = j + d by omega]; exact hd) (by omega)
      refine ⟨i + 1, by omega, ?_, ?_, ?_⟩
      · simp only [probe]
        split
        · rename_i e he
          have : ((st + j) % T.length + 1) % T.length = (st + (j + 1)) % T.length := by
            rw [← Nat.add_assoc, Nat.mod_add_mod]
          rw [this, h1]
          congr 1; omega
        · rename_i hne
          exfalso
          cases h : T[(st + j) % T.length]? with
          | none =>
            rw [List.getElem?_eq_none_iff] at h
            have := Nat.mod_lt (st + j) hN
            omega
          | some o =>
            cases o with
            | none => exact h0 (by simp [at_, h])
            | some e => exact hne e h
      · rw [show j + (i + 1) = j + 1 + i by omega]; exact h2
      · intro k hk
        cases k with
        | zero => simpa using h0
        | succ k => rw [show j + (k + 1) = j + 1 + k by omega]; exact h3 k (by omega)

/-- number of occupied slots -/
def occupied (T : List (Option Entry)) : Nat := T.countP Option.isSome

theorem exists_free (T : List (Option Entry)) (h : occupied T < T.length) :
    ∃ k : Nat, k < T.length ∧ (T[k]?).join = none := by
  induction T with
  | nil => simp at h
  | cons s r ih =>
    cases s with
    | none => exact ⟨0, by simp, by simp⟩
    | some e =>
      have : occupied r < r.length := by
        simp [occupied] at h ⊢; omega
      obtain ⟨k, h1, h2⟩ := ih this
      exact ⟨k + 1, by simp; omega, by simpa using h2⟩

/-- every slot is reached from every start -/
theorem reach {n st k : Nat} (hk : k < n) : ∃ d, d < n ∧ (st + d) % n = k := by
  have hn : 0 < n := by omega
  have h1 : st % n < n := Nat.mod_lt _ hn
  refine ⟨(k + (n - st % n)) % n, Nat.mod_lt _ hn, ?_⟩
  rw [Nat.add_mod_mod, ← Nat.mod_add_div st n]
  have : st % n + n * (st / n) + (k + (n - (st % n + n * (st / n)) % n)) = k + n * (st / n + 1) := by
    have e : (st % n + n * (st / n)) % n = st % n := by
      rw [Nat.add_mul_mod_self_left, Nat.mod_mod]
    rw [e]
    have : n * (st / n + 1) = n * (st / n) + n := by ring
    omega
  rw [this, Nat.add_mul_mod_self_left, Nat.mod_eq_of_lt hk]

theorem step_inj {n st a b : Nat} (ha : a < n) (hb : b < n) (h : (st + a) % n = (st + b) % n) : a = b := by
  have h1 : a ≡ b [MOD n] := Nat.ModEq.add_left_cancel' st h
  have := Nat.ModEq.eq_of_lt_of_lt h1 ha hb
  exact this

/-- what insertion does to a table with a free slot -/
theorem insertEntry_spec (T : List (Option Entry)) (e : Entry) (h : occupied T < T.length) :
    ∃ n, n < T.length ∧ (T[n]?).join = none ∧ insertEntry T e = T.set n (some e) ∧
      ∃ d, d < T.length ∧ (startSlot T e.1 + d) % T.length = n ∧
        ∀ k, k < d → at_ T (startSlot T e.1) k ≠ none := by
  have hN : 0 < T.length := by omega
  obtain ⟨k, hk, hfree⟩ := exists_free T h
  obtain ⟨d, hd, hdk⟩ := reach (st := startSlot T e.1) hk
  obtain ⟨i, hi, h1, h2, h3⟩ := probe_spec T (startSlot T e.1) hN T.length 0 d (by
    simp only [at_, Nat.zero_add, hdk]; exact hfree) hd
  simp only [Nat.zero_add, Nat.add_zero] at h1 h2 h3
  refine ⟨(startSlot T e.1 + i) % T.length, Nat.mod_lt _ hN, h2, ?_, i, by omega, rfl, h3⟩
  unfold insertEntry
  rw [shr8]
  have : (e.1 / 256) % T.length = startSlot T e.1 % T.length := by
    unfold startSlot; rw [Nat.mod_mod]
  rw [this, h1]

/-- The open-addressing invariant: `es` are the entries put in so far. -/
structure Probed (T : List (Option Entry)) (es : List Entry) : Prop where
  /-- an entry is reached from its start over occupied slots -/
  reached : ∀ k e, T[k]? = some (some e) → ∃ d, d < T.length ∧ (startSlot T e.1 + d) % T.length = k ∧
    ∀ i, i < d → at_ T (startSlot T e.1) i ≠ none
  /-- entries with the same hash are met in order of insertion -/
  order : ∀ u, (walk T (startSlot T u) T.length 0).filter (fun e => decide (e.1 = u)) =
    es.filter (fun e => decide (e.1 = u))
  count : occupied T = es.length

theorem at_set {T : List (Option Entry)} {n : Nat} (hn : n < T.length) (e : Entry) (st j : Nat) :
    at_ (T.set n (some e)) st j = if (st + j) % T.length = n then some e else at_ T st j := by
  unfold at_
  rw [List.length_set, List.getElem?_set]
  by_cases h : n = (st + j) % T.length
  · rw [if_pos h, if_pos h.symm, if_pos hn]; rfl
  · rw [if_neg h, if_neg (fun e => h e.symm)]

/-- a walk that does not meet slot `n` is unchanged -/
theorem walk_set_same {T : List (Option Entry)} {n : Nat} (hn : n < T.length) (e : Entry) (st : Nat) :
    ∀ (fuel j : Nat), (∀ d, d < fuel → (st + (j + d)) % T.length = n →
      ∃ i, i < d ∧ at_ T st (j + i) = none) → (T[n]?).join = none →
      (fuel = 0 ∨ (st + j) % T.length ≠ n) →
    walk (T.set n (some e)) st fuel j = walk T st fuel j := by
  intro fuel
  induction fuel with
  | zero => intro j _ _ _; rfl
  | succ fuel ih =>
    intro j h hf hj
    have hj : (st + j) % T.length ≠ n := by rcases hj with h | h; · omega
                                            · exact h
    simp only [walk]
    rw [at_set hn, if_neg hj]
    cases ha : at_ T st j with
    | none => rfl
    | some e' =>
      dsimp only
      congr 1
      apply ih (j + 1)
      · intro d hd he
        obtain ⟨i, hi, h2⟩ := h (d + 1) (by omega) (by rw [← he]; congr 1; omega)
        cases i with
        | zero => simp [ha] at h2
        | succ i => exact ⟨i, by omega, by rw [show j + 1 + i = j + (i + 1) by omega]; exact h2⟩
      · exact hf
      · rcases Nat.eq_zero_or_pos fuel with h0 | h0
        · exact .inl h0
        · right
          intro he
          obtain ⟨i, hi, h2⟩ := h 1 (by omega) he
          have : i = 0 := by omega
          subst this
          simp [ha] at h2

/-- members of a walk and where they are -/
theorem mem_walk {T : List (Option Entry)} {st : Nat} : ∀ {fuel j : Nat} {e : Entry},
    e ∈ walk T st fuel j → ∃ d, d < fuel ∧ at_ T st (j + d) = some e := by
  intro fuel
  induction fuel with
  | zero => intro j e h; cases h
  | succ fuel ih =>
    intro j e h
    simp only [walk] at h
    cases ha : at_ T st j with
    | none => rw [ha] at h; cases h
    | some e' =>
      rw [ha] at h
      rcases List.mem_cons.1 h with rfl | h
      · exact ⟨0, by omega, ha⟩
      · obtain ⟨d, hd, h2⟩ := ih h
        exact ⟨d + 1, by omega, by rw [show j + (d + 1) = j + 1 + d by omega]; exact h2⟩

theorem walk_until {T : List (Option Entry)} {st : Nat} : ∀ {d fuel j : Nat},
    d < fuel → (∀ i, i < d → at_ T st (j + i) ≠ none) → at_ T st (j + d) = none →
    ∀ (T' : List (Option Entry)) (e : Entry), (∀ i, i < d → at_ T' st (j + i) = at_ T st (j + i)) →
      at_ T' st (j + d) = some e →
      walk T' st fuel j = walk T st fuel j ++ e :: walk T' st (fuel - d - 1) (j + d + 1) := by
  intro d
  induction d with
  | zero =>
    intro fuel j hf _ hn T' e _ he
    obtain ⟨f, rfl⟩ : ∃ f, fuel = f + 1 := ⟨fuel - 1, by omega⟩
    simp only [walk]
    rw [Nat.add_zero] at hn he
    rw [hn, he]
    simp
  | succ d ih =>
    intro fuel j hf hocc hn T' e hsame he
    obtain ⟨f, rfl⟩ : ∃ f, fuel = f + 1 := ⟨fuel - 1, by omega⟩
    have h0 := hocc 0 (by omega)
    have hs0 := hsame 0 (by omega)
    rw [Nat.add_zero] at h0 hs0
    simp only [walk]
    rw [hs0]
    cases ha : at_ T st j with
    | none => exact absurd ha h0
    | some x =>
      dsimp only
      have := ih (fuel := f) (j := j + 1) (by omega)
        (fun i hi => by rw [show j + 1 + i = j + (i + 1) by omega]; exact hocc (i + 1) (by omega))
        (by rw [show j + 1 + d = j + (d + 1) by omega]; exact hn) T' e
        (fun i hi => by rw [show j + 1 + i = j + (i + 1) by omega]; exact hsame (i + 1) (by omega))
        (by rw [show j + 1 + d = j + (d + 1) by omega]; exact he)
      rw [this, List.cons_append]
      congr 2
      congr 1
      rw [show f + 1 - (d + 1) - 1 = f - d - 1 by omega, show j + (d + 1) + 1 = j + 1 + d + 1 by omega]

theorem occupied_set {T : List (Option Entry)} {n : Nat} (hn : n < T.length) (e : Entry)
    (hf : (T[n]?).join = none) : occupied (T.set n (some e)) = occupied T + 1 := by
  induction T generalizing n with
  | nil => simp at hn
  | cons s r ih =>
    cases n with
    | zero =>
      have : s = none := by simpa using hf
      subst this
      simp [occupied]
    | succ n =>
      have h1 := ih (n := n) (by simpa using hn) (by simpa using hf)
      simp only [occupied, List.set_cons_succ, List.countP_cons] at h1 ⊢
      omega

theorem Probed.insert {T : List (Option Entry)} {es : List Entry} (h : Probed T es) (e : Entry)
    (hroom : es.length < T.length) : Probed (insertEntry T e) (es ++ [e]) := by
  have hocc : occupied T < T.length := by rw [h.count]; exact hroom
  obtain ⟨n, hn, hfree, hins, d, hd, hdn, hpre⟩ := insertEntry_spec T e hocc
  have hN : 0 < T.length := by omega
  rw [hins]
  have hst : ∀ u, startSlot (T.set n (some e)) u = startSlot T u := by
    intro u; unfold startSlot; rw [List.length_set]
  have hfree_at : ∀ st j, (st + j) % T.length = n → at_ T st j = none := by
    intro st j hj; unfold at_; rw [hj]; exact hfree
  refine ⟨?_, ?_, ?_⟩
  · -- reached
    intro k e' hk
    rw [hst, List.length_set]
    rw [List.getElem?_set] at hk
    by_cases hnk : n = k
    · subst hnk
      rw [if_pos rfl, if_pos hn] at hk
      cases hk
      refine ⟨d, hd, hdn, ?_⟩
      intro i hi
      rw [at_set hn]
      split
      · simp
      · exact hpre i hi
    · rw [if_neg hnk] at hk
      obtain ⟨d', h1, h2, h3⟩ := h.reached k e' hk
      refine ⟨d', h1, h2, ?_⟩
      intro i hi
      rw [at_set hn]
      split
      · simp
      · exact h3 i hi
  · -- order
    intro u
    rw [hst, List.length_set, List.filter_append, ← h.order u]
    obtain ⟨d', hd', hdn'⟩ := reach (st := startSlot T u) hn
    by_cases hfirst : ∀ i, i < d' → at_ T (startSlot T u) i ≠ none
    · -- the new entry is met
      have hw := walk_until (T := T) (st := startSlot T u) (d := d') (fuel := T.length) (j := 0) hd'
        (fun i hi => by rw [Nat.zero_add]; exact hfirst i hi)
        (by rw [Nat.zero_add]; exact hfree_at _ _ hdn') (T.set n (some e)) e
        (fun i hi => by
          rw [at_set hn, if_neg]
          rw [Nat.zero_add]
          intro he
          have := step_inj (by omega) hd' (he.trans hdn'.symm)
          omega)
        (by rw [at_set hn, Nat.zero_add, if_pos hdn'])
      rw [hw, List.filter_append]
      congr 1
      have hrest : (walk (T.set n (some e)) (startSlot T u) (T.length - d' - 1) (0 + d' + 1)).filter
          (fun e => decide (e.1 = u)) = [] := by
        rw [List.filter_eq_nil_iff]
        intro x hx hxu
        have hxu : x.1 = u := by simpa using hxu
        obtain ⟨b, hb, hat⟩ := mem_walk hx
        rw [at_set hn] at hat
        have hne : (startSlot T u + (0 + d' + 1 + b)) % T.length ≠ n := by
          intro he
          have := step_inj (by omega) hd' (he.trans hdn'.symm)
          omega
        rw [if_neg hne] at hat
        have hslot : T[(startSlot T u + (0 + d' + 1 + b)) % T.length]? = some (some x) := by
          unfold at_ at hat
          cases hq : T[(startSlot T u + (0 + d' + 1 + b)) % T.length]? with
          | none => rw [hq] at hat; simp at hat
          | some o => rw [hq] at hat; simp at hat; rw [hat]
        obtain ⟨d2, h1, h2, h3⟩ := h.reached _ x hslot
        rw [hxu] at h2 h3
        have := step_inj h1 (by omega) h2
        exact h3 d' (by omega) (hfree_at _ _ hdn')
      simp only [List.filter_cons, hrest, List.filter_nil]
    · -- the search stops earlier
      have hex : ∃ i, i < d' ∧ at_ T (startSlot T u) i = none := by
        by_contra hc
        apply hfirst
        intro i hi h0
        exact hc ⟨i, hi, h0⟩
      have hne : e.1 ≠ u := by
        intro he
        rw [he] at hdn hpre
        have := step_inj hd hd' (hdn.trans hdn'.symm)
        subst this
        obtain ⟨i, hi, h0⟩ := hex
        exact hpre i hi h0
      have hw := walk_set_same hn e (startSlot T u) T.length 0 (by
        intro b hb he
        rw [Nat.zero_add] at he
        have := step_inj hb hd' (he.trans hdn'.symm)
        subst this
        obtain ⟨i, hi, h0⟩ := hex
        exact ⟨i, hi, by rw [Nat.zero_add]; exact h0⟩) hfree (by
          right
          intro he
          rw [Nat.add_zero] at he
          have := step_inj (st := startSlot T u) hN hd' ((show (startSlot T u + 0) % T.length = n from he).trans hdn'.symm)
          subst this
          obtain ⟨i, hi, -⟩ := hex
          omega)
      rw [hw]
      simp [hne]
  · rw [occupied_set hn e hfree, h.count]; simp

theorem probed_empty (n : Nat) : Probed (List.replicate n none) [] := by
  have hat : ∀ st j, at_ (List.replicate n (none : Option Entry)) st j = none := by
    intro st j
    unfold at_
    cases h : (List.replicate n (none : Option Entry))[(st + j) % (List.replicate n (none : Option Entry)).length]? with
    | none => rfl
    | some o =>
      have := List.mem_of_getElem? h
      have := List.eq_of_mem_replicate this
      rw [this]; rfl
  refine ⟨?_, ?_, ?_⟩
  · intro k e h
    have := List.mem_of_getElem? h
    have := List.eq_of_mem_replicate this
    cases this
  · intro u
    have : ∀ fuel st j, walk (List.replicate n (none : Option Entry)) st fuel j = [] := by
      intro fuel st j
      cases fuel with
      | zero => rfl
      | succ f => simp only [walk, hat]
    rw [this]
  · simp [occupied]

theorem probed_foldl (es' : List Entry) : ∀ (T : List (Option Entry)) (es : List Entry), Probed T es →
    es.length + es'.length ≤ T.length → Probed (es'.foldl insertEntry T) (es ++ es') := by
  induction es' with
  | nil => intro T es h _; simpa using h
  | cons e r ih =>
    intro T es h hl
    rw [List.length_cons] at hl
    rw [List.foldl_cons]
    have := ih (insertEntry T e) (es ++ [e]) (h.insert e (by omega)) (by
      rw [insertEntry_length]; simp; omega)
    simpa using this

theorem makeTable_probed (es : List Entry) : Probed (makeTable es) es := by
  have := probed_foldl es (List.replicate (2 * es.length) none) [] (probed_empty _) (by simp; omega)
  simpa [makeTable] using this

end probing

/-! ### where things are in the file -/

/-- the bytes `b` are at position `pos` of `f` -/
def Has (f : Bytes) (pos : Nat) (b : Bytes) : Prop := ∃ A B, f = A ++ b ++ B ∧ A.length = pos

theorem Has.slice {f b : Bytes} {pos : Nat} (h : Has f pos b) : slice f pos b.length = b := by
  obtain ⟨A, B, rfl, rfl⟩ := h
  exact slice_mid A b B

theorem Has.slice' {f b : Bytes} {pos n : Nat} (h : Has f pos b) (hn : b.length = n) :
    Cdb.slice f pos n = b := hn ▸ h.slice

theorem Has.inner {f b c : Bytes} {pos q : Nat} (h : Has f pos b) (h2 : Has b q c) : Has f (pos + q) c := by
  obtain ⟨A, B, rfl, rfl⟩ := h
  obtain ⟨C, D, rfl, rfl⟩ := h2
  exact ⟨A ++ C, D ++ B, by simp, by simp⟩

theorem has_left (a b : Bytes) : Has (a ++ b) 0 a := ⟨[], b, by simp, rfl⟩
theorem has_right (a b : Bytes) : Has (a ++ b) a.length b := ⟨a, [], by simp, rfl⟩

theorem has_slot : ∀ (T : List (Option Entry)) (j : Nat) (o : Option Entry), T[j]? = some o →
    Has (tableBytes T) (8 * j) (slotBytes o)
  | [], j, o, h => by simp at h
  | s :: r, 0, o, h => by
    have : s = o := by simpa using h
    subst this
    exact has_left _ _
  | s :: r, j + 1, o, h => by
    have h1 := has_slot r j o (by simpa using h)
    have h2 : Has (tableBytes (s :: r)) 8 (tableBytes r) := has_right (slotBytes s) (tableBytes r)
    have := h2.inner h1
    rwa [show 8 + 8 * j = 8 * (j + 1) by omega] at this

theorem has_header : ∀ (l : List Nat) (pos i n : Nat), l[i]? = some n →
    Has (headerBytes pos l) (8 * i) (le32 (pos + 8 * (l.take i).sum) ++ le32 n)
  | [], _, i, n, h => by simp at h
  | m :: r, pos, 0, n, h => by
    have : m = n := by simpa using h
    subst this
    have := has_left (le32 pos ++ le32 m) (headerBytes (pos + 8 * m) r)
    simp only [List.take_zero, List.sum_nil, Nat.mul_zero, Nat.add_zero]
    exact this
  | m :: r, pos, i + 1, n, h => by
    have h1 := has_header r (pos + 8 * m) i n (by simpa using h)
    have h2 : Has (headerBytes pos (m :: r)) 8 (headerBytes (pos + 8 * m) r) :=
      has_right (le32 pos ++ le32 m) (headerBytes (pos + 8 * m) r)
    have := h2.inner h1
    rw [show 8 + 8 * i = 8 * (i + 1) by omega] at this
    simp only [List.take_succ_cons, List.sum_cons]
    rwa [show pos + 8 * (m + (r.take i).sum) = pos + 8 * m + 8 * (r.take i).sum by omega]

theorem has_table (t : Tables) : ∀ (is : List Nat) (i b : Nat), is[i]? = some b →
    Has (tablesBytes t is) (8 * ((slotCounts t is).take i).sum) (tableBytes (makeTable (t b)))
  | [], i, b, h => by simp at h
  | c :: r, 0, b, h => by
    have : c = b := by simpa using h
    subst this
    exact has_left _ _
  | c :: r, i + 1, b, h => by
    have h1 := has_table t r i b (by simpa using h)
    have h2 : Has (tablesBytes t (c :: r)) (8 * (2 * (t c).length)) (tablesBytes t r) := by
      have := has_right (tableBytes (makeTable (t c))) (tablesBytes t r)
      rwa [tableBytes_length, makeTable_length] at this
    have := h2.inner h1
    simp only [slotCounts, List.map_cons, List.take_succ_cons, List.sum_cons]
    rw [Nat.mul_add]
    exact this

/-- all keys and values are ASCII -/
def AsciiItems (items : List (Str × Str)) : Prop := ∀ x ∈ items, Ascii x.1 ∧ Ascii x.2

theorem recBytes_length {k v : Str} (hk : Ascii k) (hv : Ascii v) :
    (recBytes k v).length = 8 + k.length + v.length := by
  simp only [recBytes, List.length_append, le32_length, utf8_length_ascii hk, utf8_length_ascii hv]

theorem dataBytes_length : ∀ {items : List (Str × Str)}, AsciiItems items →
    (dataBytes items).length = dataSize items
  | [], _ => rfl
  | (k, v) :: r, h => by
    have h1 := h (k, v) (by simp)
    have : dataBytes ((k, v) :: r) = recBytes k v ++ dataBytes r := rfl
    rw [this, List.length_append, recBytes_length h1.1 h1.2,
      dataBytes_length (fun x hx => h x (by simp [hx]))]
    rfl

theorem has_record : ∀ {items : List (Str × Str)}, AsciiItems items → ∀ (pos : Nat),
    ∀ x ∈ located pos items, ∃ q, x.1 = pos + q ∧ Has (dataBytes items) q (recBytes x.2.1 x.2.2)
  | [], _, _, x, h => by cases h
  | (k, v) :: r, ha, pos, x, h => by
    have hkv := ha (k, v) (by simp)
    rcases List.mem_cons.1 h with rfl | h
    · exact ⟨0, rfl, has_left _ _⟩
    · obtain ⟨q, h1, h2⟩ := has_record (fun x hx => ha x (by simp [hx])) _ x h
      have h3 : Has (dataBytes ((k, v) :: r)) (8 + k.length + v.length) (dataBytes r) := by
        have := has_right (recBytes k v) (dataBytes r)
        rwa [recBytes_length hkv.1 hkv.2] at this
      exact ⟨8 + k.length + v.length + q, by omega, h3.inner h2⟩

/-! ### iteration -/

theorem take4_slice8 (f : Bytes) (pos : Nat) : (slice f pos 8).take 4 = slice f pos 4 := by
  unfold slice; rw [List.take_take]; rfl

theorem iterFrom_record (f : Bytes) (e len : Nat) (k v : Str) (hlt : len < e)
    (hk : k.length < 4294967296) (hv : v.length < 4294967296)
    (hr : Has f len (le32 k.length ++ le32 v.length)) :
    iterFrom f e len =
      match iterFrom f e (len + 8 + k.length + v.length) with
      | .ok rest => .ok ((slice f (len + 8) k.length, slice f (len + 8 + k.length) v.length) :: rest)
      | .error e => .error e := by
  rw [iterFrom, if_pos hlt]
  have h8 : slice f len 8 = le32 k.length ++ le32 v.length := hr.slice' rfl
  have h4 : slice f len 4 = le32 k.length := by rw [← take4_slice8, h8]; rfl
  rw [h4, h8]
  have : (le32 k.length ++ le32 v.length).drop 4 = le32 v.length := rfl
  rw [this, unpack_le32 hk, unpack_le32 hv]
  rfl

theorem iterFrom_data (f : Bytes) : ∀ (items : List (Str × Str)) (pos : Nat), AsciiItems items →
    Has f pos (dataBytes items) → pos + dataSize items < 4294967296 →
    iterFrom f (pos + dataSize items) pos = .ok (items.map (fun x => (utf8 x.1, utf8 x.2)))
  | [], pos, _, _, _ => by rw [iterFrom, if_neg (by simp [dataSize])]; rfl
  | (k, v) :: r, pos, ha, hf, hs => by
    obtain ⟨hk, hv⟩ := ha (k, v) (by simp)
    have hs' : pos + (8 + k.length + v.length + dataSize r) < 4294967296 := hs
    have hrec : Has f pos (recBytes k v) := by
      have := hf.inner (has_left (recBytes k v) (dataBytes r))
      rwa [Nat.add_zero] at this
    have hrest : Has f (pos + (8 + k.length + v.length)) (dataBytes r) := by
      have := hf.inner (has_right (recBytes k v) (dataBytes r))
      rwa [recBytes_length hk hv] at this
    have hkk : Has f (pos + 8) (utf8 k) := by
      have : Has (recBytes k v) 8 (utf8 k) := ⟨le32 k.length ++ le32 v.length, utf8 v, rfl, rfl⟩
      exact hrec.inner this
    have hvv : Has f (pos + (8 + k.length)) (utf8 v) := by
      have : Has (recBytes k v) (8 + k.length) (utf8 v) :=
        ⟨le32 k.length ++ le32 v.length ++ utf8 k, [], by simp [recBytes], by
          simp [le32_length, utf8_length_ascii hk]; omega⟩
      exact hrec.inner this
    rw [iterFrom_record f _ pos k v (by simp only [dataSize]; omega) (by omega) (by omega) (by
      obtain ⟨A, B, h1, h2⟩ := hrec
      exact ⟨A, utf8 k ++ utf8 v ++ B, by rw [h1]; simp [recBytes], h2⟩)]
    have ih := iterFrom_data f r (pos + (8 + k.length + v.length)) (fun x hx => ha x (by simp [hx])) hrest
      (by omega)
    rw [show pos + dataSize ((k, v) :: r) = pos + (8 + k.length + v.length) + dataSize r by
      simp only [dataSize]; omega]
    rw [show pos + 8 + k.length + v.length = pos + (8 + k.length + v.length) by omega, ih]
    dsimp only
    rw [hkk.slice' (utf8_length_ascii hk), show pos + 8 + k.length = pos + (8 + k.length) by omega,
      hvv.slice' (utf8_length_ascii hv)]
    rfl

theorem eod_made {f : Bytes} {p n : Nat} (hp : p < 4294967296) (h : Has f 0 (le32 p ++ le32 n)) :
    eod f = .ok p := by
  unfold eod
  have : slice f 0 4 = le32 p := by
    have h8 : slice f 0 8 = le32 p ++ le32 n := h.slice' rfl
    rw [← take4_slice8, h8]; rfl
  have h2 : f.take 4 = slice f 0 4 := by simp [slice]
  rw [h2, this, unpack_le32 hp]

/-! ### searching -/

section search
variable {κ : Type} (ops : KeyOps κ) (f : Bytes) (key : κ) (T : List (Option Entry)) (hpos u : Nat)
  (res : Nat → Option Bytes)

/-- the search has looked at `l` slots -/
structure SearchAt (s : Search) (l : Nat) : Prop where
  loop : s.loop = l
  khash : s.khash = u
  hposEq : s.hpos = hpos
  hslots : s.hslots = T.length
  kpos : s.kpos = hpos + 8 * ((startSlot T u + l) % T.length)
  le : l ≤ T.length

/-- values still to be found -/
def cands (l : Nat) : List Bytes :=
  ((walk T (startSlot T u) (T.length - l) l).filter (fun e => decide (e.1 = u))).filterMap (fun e => res e.2)

/-- outcome of looking for the first of some values -/
def firstOf : List Bytes → Except Err Bytes
  | [] => .error .keyError
  | v :: _ => .ok v

theorem nextPos_at {s : Search} {l : Nat} (h : SearchAt T hpos u s l) (hl : l < T.length) :
    nextPos s = hpos + 8 * ((startSlot T u + (l + 1)) % T.length) := by
  have hN : 0 < T.length := by omega
  unfold nextPos
  rw [h.hposEq, h.hslots, h.kpos, shl3]
  have hm := Nat.mod_lt (startSlot T u + l) hN
  have he : (startSlot T u + (l + 1)) % T.length = ((startSlot T u + l) % T.length + 1) % T.length := by
    rw [Nat.mod_add_mod]; rfl
  rw [he]
  generalize (startSlot T u + l) % T.length = m at hm
  by_cases hc : m + 1 = T.length
  · rw [if_pos (by omega), hc, Nat.mod_self]; rfl
  · rw [if_neg (by omega), Nat.mod_eq_of_lt (by omega)]; omega

theorem findLoop_spec (hin : Has f hpos (tableBytes T)) (hfit : ∀ s ∈ T, SlotFits s)
    (hres : ∀ e, some e ∈ T → e.1 = u → testRecord ops f key e.2 = .ok (res e.2)) :
    ∀ (fuel l : Nat) (s : Search), SearchAt T hpos u s l → fuel = T.length - l →
    ∃ s' l', findLoop ops f key fuel s = (firstOf (cands T u res l), s') ∧ SearchAt T hpos u s' l' ∧
      cands T u res l' = (cands T u res l).tail := by
  intro fuel
  induction fuel with
  | zero =>
    intro l s h hf
    have : cands T u res l = [] := by unfold cands; rw [← hf]; rfl
    exact ⟨s, l, by rw [this]; rfl, h, by rw [this]; rfl⟩
  | succ fuel ih =>
    intro l s h hf
    have hl : l < T.length := by omega
    have hN : 0 < T.length := by omega
    have hm := Nat.mod_lt (startSlot T u + l) hN
    obtain ⟨o, ho⟩ : ∃ o, T[(startSlot T u + l) % T.length]? = some o :=
      ⟨T[(startSlot T u + l) % T.length], List.getElem?_eq_getElem hm⟩
    have hat : at_ T (startSlot T u) l = o := by unfold at_; rw [ho]; rfl
    have hmem : o ∈ T := List.mem_of_getElem? ho
    have hslice : slice f s.kpos 8 = slotBytes o := by
      rw [h.kpos]
      exact (hin.inner (has_slot T _ o ho)).slice' rfl
    have hfuel : T.length - l = fuel + 1 := by omega
    simp only [findLoop]
    rw [hslice]
    have hd : (slotBytes o).drop 4 = le32 (o.getD (0, 0)).2 := rfl
    have ht : (slotBytes o).take 4 = le32 (o.getD (0, 0)).1 := rfl
    rw [hd, ht]
    cases o with
    | none =>
      have hc : cands T u res l = [] := by
        unfold cands; rw [hfuel]; simp only [walk]; rw [hat]; rfl
      refine ⟨s, l, ?_, h, by rw [hc]; rfl⟩
      rw [Option.getD_none, unpack_le32 (by norm_num), hc]
      rfl
    | some e =>
      obtain ⟨h1, h2, h3⟩ := hfit _ hmem e rfl
      rw [Option.getD_some, unpack_le32 h3]
      dsimp only
      rw [if_neg (by omega), unpack_le32 h1]
      dsimp only
      have hs' : SearchAt T hpos u { s with loop := s.loop + 1, kpos := nextPos s } (l + 1) := by
        refine ⟨?_, h.khash, h.hposEq, h.hslots, nextPos_at T hpos u h hl, by omega⟩
        simp [h.loop]
      have hw : walk T (startSlot T u) (T.length - l) l =
          e :: walk T (startSlot T u) (T.length - (l + 1)) (l + 1) := by
        rw [hfuel]; simp only [walk]; rw [hat]
        dsimp only
        rw [show T.length - (l + 1) = fuel by omega]
      obtain ⟨s2, l2, g1, g2, g3⟩ := ih (l + 1) _ hs' (by omega)
      by_cases hu : e.1 = u
      · rw [if_pos (hu.trans h.khash.symm), hres e hmem hu]
        have hc : cands T u res l = (res e.2).toList ++ cands T u res (l + 1) := by
          unfold cands
          rw [hw]
          simp only [List.filter_cons, hu, decide_true, if_true, List.filterMap_cons]
          cases res e.2 <;> rfl
        cases hr : res e.2 with
        | none =>
          rw [hr] at hc
          simp only [Option.toList, List.nil_append, List.cons_append] at hc
          dsimp only
          rw [hc]
          exact ⟨s2, l2, g1, g2, g3⟩
        | some v =>
          rw [hr] at hc
          simp only [Option.toList, List.nil_append, List.cons_append] at hc
          dsimp only
          rw [hc]
          exact ⟨_, l + 1, rfl, hs', rfl⟩
      · rw [if_neg (fun q => hu (q.trans h.khash))]
        have hc : cands T u res l = cands T u res (l + 1) := by
          unfold cands
          rw [hw]
          simp [hu]
        rw [hc]
        exact ⟨s2, l2, g1, g2, g3⟩

/-- the search state of a Cdb object before a call of findnext with this key -/
def Ready (s : Search) (vals : List Bytes) : Prop :=
  (s.loop = 0 ∧ vals = cands T u res 0) ∨ ∃ l, SearchAt T hpos u s l ∧ vals = cands T u res l

theorem findnext_spec (hin : Has f hpos (tableBytes T)) (hfit : ∀ s ∈ T, SlotFits s)
    (hres : ∀ e, some e ∈ T → e.1 = u → testRecord ops f key e.2 = .ok (res e.2))
    (hinit : ∀ s : Search, s.loop = 0 → if T.length = 0 then findInit ops f key s = .error .keyError else
      ∃ s', findInit ops f key s = .ok s' ∧ SearchAt T hpos u s' 0)
    (s : Search) (vals : List Bytes) (h : Ready T hpos u res s vals) :
    ∃ s', findnext ops f key s = (firstOf vals, s') ∧ Ready T hpos u res s' vals.tail := by
  have fresh : s.loop = 0 → vals = cands T u res 0 →
      ∃ s', findnext ops f key s = (firstOf vals, s') ∧ Ready T hpos u res s' vals.tail := by
    intro h0 hv
    unfold findnext
    rw [if_pos h0]
    have hi := hinit s h0
    by_cases hN : T.length = 0
    · rw [if_pos hN] at hi
      rw [hi]
      have : cands T u res 0 = [] := by unfold cands; rw [hN]; rfl
      subst hv
      exact ⟨s, by rw [this]; rfl, .inl ⟨h0, by rw [this]; rfl⟩⟩
    · rw [if_neg hN] at hi
      obtain ⟨s1, h1, h2⟩ := hi
      rw [h1]
      dsimp only
      obtain ⟨s2, l2, g1, g2, g3⟩ := findLoop_spec ops f key T hpos u res hin hfit hres
        (s1.hslots - s1.loop) 0 s1 h2 (by rw [h2.hslots, h2.loop])
      subst hv
      exact ⟨s2, g1, .inr ⟨l2, g2, g3.symm⟩⟩
  rcases h with ⟨h0, hv⟩ | ⟨l, hs, hv⟩
  · exact fresh h0 hv
  · by_cases h0 : s.loop = 0
    · have : l = 0 := by rw [← hs.loop]; exact h0
      subst this
      exact fresh h0 hv
    · unfold findnext
      rw [if_neg h0]
      obtain ⟨s2, l2, g1, g2, g3⟩ := findLoop_spec ops f key T hpos u res hin hfit hres
        (s.hslots - s.loop) l s hs (by rw [hs.hslots, hs.loop])
      subst hv
      exact ⟨s2, g1, .inr ⟨l2, g2, g3.symm⟩⟩

/-- outcomes of `n` calls when the values to be found are `vals` -/
def outcomes (n : Nat) (vals : List Bytes) : List (Except Err Bytes) :=
  (vals.map Except.ok ++ List.replicate n (Except.error Err.keyError)).take n

theorem outcomes_succ (n : Nat) (vals : List Bytes) :
    outcomes (n + 1) vals = firstOf vals :: outcomes n vals.tail := by
  cases vals with
  | nil => simp [outcomes, firstOf, List.replicate_succ]
  | cons v r =>
    simp only [outcomes, firstOf, List.map_cons, List.cons_append, List.take_succ_cons, List.tail_cons]
    congr 1
    rw [List.replicate_succ', ← List.append_assoc]
    rw [List.take_append_of_le_length]
    simp

theorem findMany_spec (hin : Has f hpos (tableBytes T)) (hfit : ∀ s ∈ T, SlotFits s)
    (hres : ∀ e, some e ∈ T → e.1 = u → testRecord ops f key e.2 = .ok (res e.2))
    (hinit : ∀ s : Search, s.loop = 0 → if T.length = 0 then findInit ops f key s = .error .keyError else
      ∃ s', findInit ops f key s = .ok s' ∧ SearchAt T hpos u s' 0) :
    ∀ (n : Nat) (s : Search) (vals : List Bytes), Ready T hpos u res s vals →
      findMany ops f key n s = outcomes n vals := by
  intro n
  induction n with
  | zero => intro s vals _; simp [findMany, outcomes]
  | succ n ih =>
    intro s vals h
    obtain ⟨s', h1, h2⟩ := findnext_spec ops f key T hpos u res hin hfit hres hinit s vals h
    rw [findMany, h1, outcomes_succ]
    dsimp only
    rw [ih s' _ h2]

end search

/-- Searching a made database: the calls find, in order, the records with the key's
hash for which the test succeeds. -/
theorem search_made {κ : Type} (ops : KeyOps κ) (f : Bytes) (items : List (Str × Str)) (key : κ) (u : Nat)
    (hs : fileSize items < 4294967296) (ha : AsciiItems items) (hu : ops.hash key = .ok u)
    (res : Nat → Option Bytes) {rest : Bytes}
    (hf : f = headerBytes (2048 + dataSize items) (slotCounts (tablesOf items) (List.range 256)) ++
        (dataBytes items ++ (tablesBytes (tablesOf items) (List.range 256) ++ rest)))
    (hres : ∀ x ∈ located 2048 items, testRecord ops f key x.1 = .ok (res x.1))
    (n : Nat) (s : Search) :
    findMany ops f key n (findstart s) =
      outcomes n (((located 2048 items).filter (fun x => decide (cdbHash x.2.1 = u))).filterMap
        (fun x => res x.1)) := by
  have hs' : 2048 + dataSize items + 16 * items.length < 4294967296 := hs
  have hb : u % 256 < 256 := Nat.mod_lt _ (by norm_num)
  generalize hT : makeTable (tablesOf items (u % 256)) = T
  generalize hcnt : slotCounts (tablesOf items) (List.range 256) = cnt at hf
  have hhl : (headerBytes (2048 + dataSize items) cnt).length = 2048 := by
    rw [headerBytes_length, ← hcnt]; simp [slotCounts]
  have hN : T.length = 2 * (tablesOf items (u % 256)).length := by rw [← hT, makeTable_length]
  have hci : cnt[u % 256]? = some T.length := by
    rw [← hcnt, hN]
    simp [slotCounts, hb]
  have hsum : cnt.sum = 2 * items.length := by rw [← hcnt, slotCounts_sum]
  have hle : (cnt.take (u % 256)).sum + T.length ≤ cnt.sum := by
    have h1 : cnt.sum = (cnt.take (u % 256)).sum + (cnt.drop (u % 256)).sum := by
      rw [← List.sum_append, List.take_append_drop]
    have h2 : cnt.drop (u % 256) = T.length :: cnt.drop (u % 256 + 1) := by
      obtain ⟨hlt, he⟩ := List.getElem?_eq_some_iff.1 hci
      rw [List.drop_eq_getElem_cons hlt, he]
    rw [h1, h2, List.sum_cons]; omega
  let hpos := 2048 + dataSize items + 8 * (cnt.take (u % 256)).sum
  have hhead : Has f (8 * (u % 256)) (le32 hpos ++ le32 T.length) := by
    have h1 := has_header cnt (2048 + dataSize items) (u % 256) T.length hci
    have h2 : Has f 0 (headerBytes (2048 + dataSize items) cnt) := by rw [hf]; exact has_left _ _
    have := h2.inner h1
    rwa [Nat.zero_add] at this
  have htab : Has f hpos (tableBytes T) := by
    have h1 := has_table (tablesOf items) (List.range 256) (u % 256) (u % 256) (by
      simp [hb])
    rw [hT, hcnt] at h1
    have h2 : Has f (2048 + dataSize items) (tablesBytes (tablesOf items) (List.range 256)) := by
      refine ⟨headerBytes (2048 + dataSize items) cnt ++ dataBytes items, rest, by rw [hf]; simp, ?_⟩
      rw [List.length_append, hhl, dataBytes_length ha]
    exact h2.inner h1
  have hfits : ∀ s ∈ T, SlotFits s := by
    rw [← hT]
    exact makeTable_fits (fun e he => entriesOf_fits hs e (List.mem_of_mem_filter he))
  have hinit : ∀ s : Search, s.loop = 0 → if T.length = 0 then findInit ops f key s = .error .keyError else
      ∃ s', findInit ops f key s = .ok s' ∧ SearchAt T hpos u s' 0 := by
    intro s h0
    have hbuf : slice f ((u <<< 3) &&& 2047) 8 = le32 hpos ++ le32 T.length := by
      rw [and2047]; exact hhead.slice' rfl
    have hd : (le32 hpos ++ le32 T.length).drop 4 = le32 T.length := rfl
    have ht : (le32 hpos ++ le32 T.length).take 4 = le32 hpos := rfl
    have e1 : uint32Unpack (le32 T.length) = .ok T.length := unpack_le32 (by omega)
    have e2 : uint32Unpack (le32 hpos) = .ok hpos := unpack_le32 (by
      change 2048 + dataSize items + 8 * (cnt.take (u % 256)).sum < _; omega)
    split
    · rename_i hz
      unfold findInit
      rw [hu]
      simp only [bind, Except.bind]
      rw [hbuf, hd, e1]
      dsimp only
      rw [if_pos hz]
    · rename_i hz
      unfold findInit
      rw [hu]
      simp only [bind, Except.bind]
      rw [hbuf, hd, e1]
      dsimp only
      rw [if_neg hz, ht, e2]
      refine ⟨_, rfl, ⟨h0, rfl, rfl, rfl, ?_, by omega⟩⟩
      dsimp only
      rw [shl3, shr8, Nat.add_zero]
      unfold startSlot
      rw [Nat.mod_mod]
  have hcands : cands T u res 0 =
      ((located 2048 items).filter (fun x => decide (cdbHash x.2.1 = u))).filterMap (fun x => res x.1) := by
    unfold cands
    rw [Nat.sub_zero]
    have hp := (makeTable_probed (tablesOf items (u % 256))).order u
    rw [hT] at hp
    rw [hp]
    unfold tablesOf entriesOf
    rw [List.filter_filter]
    have : ((located 2048 items).map (fun x => (cdbHash x.2.1, x.1))).filter
        (fun a : Entry => decide (a.1 = u) && decide (a.1 % 256 = u % 256)) =
        ((located 2048 items).filter (fun x => decide (cdbHash x.2.1 = u))).map
          (fun x => ((cdbHash x.2.1, x.1) : Entry)) := by
      rw [List.filter_map]
      congr 1
      apply List.filter_congr
      intro x _
      by_cases hx : cdbHash x.2.1 = u
      · simp [hx]
      · simp [hx]
    rw [this, List.filterMap_map]
    rfl
  refine findMany_spec ops f key T hpos u res htab hfits ?_ hinit n (findstart s) _ (.inl ⟨rfl, hcands.symm⟩)
  intro e he _
  rw [← hT] at he
  rcases makeTable_mem he with h | ⟨e', he', h⟩
  · cases h
  · cases h
    have := List.mem_of_mem_filter he'
    obtain ⟨x, hx, rfl⟩ := List.mem_map.1 this
    exact hres x hx

/-- the record test on an ASCII record -/
theorem testRecord_made {κ : Type} (ops : KeyOps κ) {f : Bytes} {pos : Nat} {k v : Str} (key : κ)
    (hk : Ascii k) (hv : Ascii v) (hl : k.length < 4294967296) (hl' : v.length < 4294967296)
    (h : Has f pos (recBytes k v)) :
    testRecord ops f key pos =
      .ok (if k.length = ops.len key ∧ ops.eq key (utf8 k) = true then some (utf8 v) else none) := by
  have h8 : slice f pos 8 = le32 k.length ++ le32 v.length := by
    have : Has (recBytes k v) 0 (le32 k.length ++ le32 v.length) := ⟨[], utf8 k ++ utf8 v, by simp [recBytes], rfl⟩
    exact (h.inner this).slice' rfl
  have hkk : Has f (pos + 8) (utf8 k) := h.inner ⟨le32 k.length ++ le32 v.length, utf8 v, rfl, rfl⟩
  have hvv : Has f (pos + (8 + k.length)) (utf8 v) := by
    refine h.inner ⟨le32 k.length ++ le32 v.length ++ utf8 k, [], by simp [recBytes], by
          simp [le32_length, utf8_length_ascii hk]; omega⟩
  have ht : (le32 k.length ++ le32 v.length).take 4 = le32 k.length := rfl
  have hd : (le32 k.length ++ le32 v.length).drop 4 = le32 v.length := rfl
  unfold testRecord
  rw [h8, ht, hd, unpack_le32 hl, unpack_le32 hl']
  simp only [bind, Except.bind]
  by_cases h1 : k.length = ops.len key
  · rw [if_pos h1, ← h1, hkk.slice' (utf8_length_ascii hk)]
    by_cases h2 : ops.eq key (utf8 k) = true
    · rw [if_pos h2, if_pos ⟨rfl, h2⟩, Nat.add_assoc, hvv.slice' (utf8_length_ascii hv)]
    · rw [if_neg h2, if_neg (fun h => h2 h.2)]
  · rw [if_neg h1, if_neg (fun h => h1 h.1)]

end Sb.Cdb
