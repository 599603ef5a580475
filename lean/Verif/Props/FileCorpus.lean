import Verif.Props.Corpora

/-
Properties C49, C50, C52, C67 and C68 of FileCache, FileCorpus and ExpiryFileCorpus.
-/

set_option linter.unusedSectionVars false

namespace Sb.Props
open Sb.Corpora Py Mail

/-! ### File names -/

/-- A name of a file: no slash, and not empty, "." or "..". -/
def PlainName (k : Txt) : Prop := k ≠ [] ∧ 47 ∉ k ∧ k ≠ txt "." ∧ k ≠ txt ".."

instance (k : Txt) : Decidable (PlainName k) := inferInstanceAs (Decidable (_ ∧ _))

theorem splitSlash_plain {k : Txt} (h : 47 ∉ k) : splitSlash k = [k] := by
  induction k with
  | nil => rfl
  | cons a t ih =>
    simp only [List.mem_cons, not_or] at h
    simp only [splitSlash, ih h.2, if_neg (Ne.symm h.1)]

theorem resolve_plain {k : Txt} (h : PlainName k) {fs : FS} {dir : Path} (hd : fs.isDir dir = true) :
    fs.resolve dir k = some (dir ++ [k]) := by
  obtain ⟨h1, h2, h3, h4⟩ := h
  have hh : k.head? ≠ some 47 := fun hh => h2 (List.mem_of_head? hh)
  simp only [FS.resolve, splitSlash_plain h2, if_neg hh, FS.walk, hd, h1, h3, h4, or_self, if_false, if_true]

/-! ### Directories -/

/-- Same directories. -/
def SameDirs (fs fs' : FS) : Prop := ∀ p, fs.isDir p = fs'.isDir p

theorem SameDirs.refl (fs : FS) : SameDirs fs fs := fun _ => rfl

theorem SameDirs.trans {a b c : FS} (h : SameDirs a b) (h' : SameDirs b c) : SameDirs a c :=
  fun p => (h p).trans (h' p)

theorem isDir_iff (fs : FS) (p : Path) : fs.isDir p = true ↔ p = [] ∨ fs.get? p = some .dir := by
  simp [FS.isDir]

theorem sameDirs_of {fs fs' : FS} (h : ∀ p, fs.get? p = some .dir ↔ fs'.get? p = some .dir) :
    SameDirs fs fs' := by
  intro p
  rw [Bool.eq_iff_iff, isDir_iff, isDir_iff, h p]

theorem write_dirs {fs fs' : FS} {p : Path} {b : List Nat} (h : fs.write p b = .ok fs') : SameDirs fs fs' := by
  unfold FS.write at h
  by_cases hd : fs.isDir p = true
  · rw [if_pos hd] at h; cases h
  · rw [if_neg hd] at h
    cases h
    apply sameDirs_of
    intro q
    rw [Dict.get?_set]
    by_cases hq : p = q
    · subst hq
      simp only [if_true]
      constructor
      · intro h'; exact absurd ((isDir_iff fs p).2 (.inr h')) hd
      · intro h'; cases h'
    · rw [if_neg hq]

theorem remove_dirs {fs fs' : FS} {p : Path} (h : fs.remove p = .ok fs') : SameDirs fs fs' := by
  unfold FS.remove at h
  cases hg : fs.get? p with
  | none => rw [hg] at h; cases h
  | some nd =>
    cases nd with
    | dir => rw [hg] at h; cases h
    | file b =>
      rw [hg] at h
      cases h
      apply sameDirs_of
      intro q
      rw [Dict.get?_erase]
      by_cases hq : p = q
      · subst hq; simp [hg]
      · rw [if_neg hq]

section
variable {ν σ R : Type} (O : MailOps ν)

theorem removeFile_dirs (c : FileCache ν) (fs : FS) (k : Txt) : SameDirs fs (c.removeFile fs k) := by
  unfold FileCache.removeFile
  cases fs.resolve c.dir k with
  | none => exact .refl fs
  | some p =>
    simp only
    cases h : fs.remove p with
    | error e => exact .refl fs
    | ok fs' => exact remove_dirs h

/-- A call of a method of a FileCache; what is raised is caught. -/
def fileCall (s : FileCache ν × FS) : CacheCall Key ν → FileCache ν × FS
  | .put k v => (FileCache.put O k v s).2
  | .pop k => (FileCache.pop k s).2

def fileCalls (calls : List (CacheCall Key ν)) (s : FileCache ν × FS) : FileCache ν × FS :=
  calls.foldl (fileCall O) s

/-- What no call changes. -/
def SameCache (s s' : FileCache ν × FS) : Prop :=
  s'.1.dir = s.1.dir ∧ s'.1.accept = s.1.accept ∧ s'.1.numFiles = s.1.numFiles ∧
  s'.1.cache.maxSize = s.1.cache.maxSize ∧ SameDirs s.2 s'.2

theorem SameCache.trans {a b c : FileCache ν × FS} (h : SameCache a b) (h' : SameCache b c) : SameCache a c :=
  ⟨h'.1.trans h.1, h'.2.1.trans h.2.1, h'.2.2.1.trans h.2.2.1, h'.2.2.2.1.trans h.2.2.2.1,
    h.2.2.2.2.trans h'.2.2.2.2⟩

theorem pop_same (k : Key) (s : FileCache ν × FS) : SameCache s (FileCache.pop k s).2 := by
  cases k with
  | none => exact ⟨rfl, rfl, rfl, rfl, .refl _⟩
  | some k => exact ⟨rfl, rfl, rfl, rfl, removeFile_dirs _ _ _⟩

theorem superPut_same (k : Key) (v : ν) (s : FileCache ν × FS) : SameCache s (FileCache.superPut k v s).2 := by
  obtain ⟨c, fs⟩ := s
  unfold FileCache.superPut
  simp only
  cases hf : (c.cache.insert k v).toFlush with
  | none => exact ⟨rfl, rfl, rfl, rfl, .refl _⟩
  | some k0 =>
    have h1 : SameCache (c, fs) ({ c with cache := c.cache.insert k v }, fs) := ⟨rfl, rfl, rfl, rfl, .refl _⟩
    have h2 := h1.trans (pop_same k0 ({ c with cache := c.cache.insert k v }, fs))
    simp only
    cases hp : FileCache.pop k0 ({ c with cache := c.cache.insert k v }, fs) with
    | mk x s' =>
      rw [hp] at h2
      cases x <;> exact h2

theorem writeFile_same (k : Txt) (v : ν) (s : FileCache ν × FS) :
    SameCache s (FileCache.writeFile O k v s).2 ∧ (FileCache.writeFile O k v s).2.1 = s.1 := by
  obtain ⟨c, fs⟩ := s
  unfold FileCache.writeFile
  simp only
  cases fs.resolve c.dir k with
  | none => exact ⟨⟨rfl, rfl, rfl, rfl, .refl _⟩, rfl⟩
  | some p =>
    simp only
    cases h : fs.write p [] with
    | error e => exact ⟨⟨rfl, rfl, rfl, rfl, .refl _⟩, rfl⟩
    | ok fs' =>
      simp only
      cases O.bytes v with
      | error e => exact ⟨⟨rfl, rfl, rfl, rfl, write_dirs h⟩, rfl⟩
      | ok b =>
        simp only
        cases h' : fs'.write p b with
        | error e => exact ⟨⟨rfl, rfl, rfl, rfl, write_dirs h⟩, rfl⟩
        | ok fs'' => exact ⟨⟨rfl, rfl, rfl, rfl, (write_dirs h).trans (write_dirs h')⟩, rfl⟩

theorem fileCall_same (s : FileCache ν × FS) (call : CacheCall Key ν) : SameCache s (fileCall O s call) := by
  cases call with
  | pop k => exact pop_same k s
  | put k v =>
    unfold fileCall FileCache.put
    simp only
    cases k with
    | none => exact ⟨rfl, rfl, rfl, rfl, .refl _⟩
    | some k =>
      simp only
      by_cases ha : s.1.accept k = true
      · rw [if_pos ha, M.bind_run]
        have h1 := superPut_same (some k) v s
        cases hp : FileCache.superPut (some k) v s with
        | mk x s' =>
          rw [hp] at h1
          cases x with
          | error e => exact h1
          | ok _ => exact h1.trans (writeFile_same O k v s').1
      · rw [if_neg ha]; exact ⟨rfl, rfl, rfl, rfl, .refl _⟩

theorem fileCalls_same (s : FileCache ν × FS) (calls : List (CacheCall Key ν)) :
    SameCache s (fileCalls O calls s) := by
  induction calls generalizing s with
  | nil => exact ⟨rfl, rfl, rfl, rfl, .refl _⟩
  | cons a r ih => exact (fileCall_same O s a).trans (ih (fileCall O s a))

/-! ### A corpus on files makes the calls of its operations -/

theorem keyOf_match (m : ν) (k : Option Txt) : keyOf O m k = (match k with
    | some k => some k
    | none => O.id m) := by cases k <;> rfl

theorem cacheStep_file (op : Op ν R) (w : World ν σ) (f : FileCache ν)
    (h : w.heap[(opCorpus op).cache]? = some (.file f)) :
    (cacheStep O op w).2.heap[(opCorpus op).cache]? = some (.file (fileCall O (f, w.fs) (opCall O op)).1) ∧
    (cacheStep O op w).2.fs = (fileCall O (f, w.fs) (opCall O op)).2 := by
  have hlt : (opCorpus op).cache < w.heap.length := (List.getElem?_eq_some_iff.1 h).1
  cases op with
  | add it c m k e =>
    simp only [opCorpus] at h hlt
    simp only [cacheStep, cachePut, opCorpus, opCall, h, fileCall]
    rw [keyOf_match]
    exact ⟨List.getElem?_set_self hlt, rfl⟩
  | remove it c m e =>
    simp only [opCorpus] at h hlt
    simp only [cacheStep, cachePop, opCorpus, opCall, h, fileCall]
    cases hp : FileCache.pop (O.id m) (f, w.fs) with
    | mk x y => cases x <;> exact ⟨List.getElem?_set_self hlt, rfl⟩

theorem runOps_file (run : R → Observer ν σ) (S : Signals R) (c : Corpus) (ops : List (Op ν R))
    (hops : ∀ op ∈ ops, opCorpus op = c) (w : World ν σ) (f : FileCache ν)
    (h : w.heap[c.cache]? = some (.file f)) :
    (runOps O run S ops w).heap[c.cache]? = some (.file (fileCalls O (ops.map (opCall O)) (f, w.fs)).1) ∧
    (runOps O run S ops w).fs = (fileCalls O (ops.map (opCall O)) (f, w.fs)).2 := by
  induction ops generalizing w f with
  | nil => exact ⟨h, rfl⟩
  | cons op t ih =>
    have hc := hops op (by simp)
    have h1 := cacheStep_file O op w f (by rw [hc]; exact h)
    have h2 := runOp_caches O run S op w
    rw [hc, ← h2.1, ← h2.2] at h1
    have := ih (fun o ho => hops o (by simp [ho])) _ _ h1.1
    rw [h1.2] at this
    exact this

/-! ### What calls do to files -/

/-- A call with a proper file name that can be carried out in the directory. -/
def GoodCall (dir : Path) (accept : Txt → Bool) (fs : FS) : CacheCall Key ν → Prop
  | .put k v => ∃ name b, k = some name ∧ PlainName name ∧ accept name = true ∧
      fs.isDir (dir ++ [name]) = false ∧ O.bytes v = .ok b
  | .pop k => ∃ name, k = some name ∧ PlainName name

theorem removeFile_get (c : FileCache ν) {fs : FS} {k : Txt} (hk : PlainName k) (hd : fs.isDir c.dir = true)
    (hs : fs.isDir (c.dir ++ [k]) = false) (p : Path) :
    (c.removeFile fs k).get? p = if p = c.dir ++ [k] then none else fs.get? p := by
  unfold FileCache.removeFile
  rw [resolve_plain hk hd]
  simp only [FS.remove]
  cases hg : fs.get? (c.dir ++ [k]) with
  | none =>
    simp only
    split
    · rename_i h; rw [h, hg]
    · rfl
  | some nd =>
    cases nd with
    | dir => rw [(isDir_iff _ _).2 (.inr hg)] at hs; cases hs
    | file b =>
      simp only [Dict.get?_erase]
      by_cases h : p = c.dir ++ [k]
      · simp [h]
      · rw [if_neg h, if_neg (Ne.symm h)]

theorem writeFile_ok (c : FileCache ν) {fs : FS} {k : Txt} {v : ν} {b : List Nat} (hk : PlainName k)
    (hd : fs.isDir c.dir = true) (hs : fs.isDir (c.dir ++ [k]) = false) (hb : O.bytes v = .ok b) :
    ∃ fs', FileCache.writeFile O k v (c, fs) = (.ok (), (c, fs')) ∧
      ∀ p, fs'.get? p = if p = c.dir ++ [k] then some (.file b) else fs.get? p := by
  have hw : fs.write (c.dir ++ [k]) [] = .ok (fs.set (c.dir ++ [k]) (.file [])) := by
    simp [FS.write, hs]
  have hs' : FS.isDir (fs.set (c.dir ++ [k]) (.file [])) (c.dir ++ [k]) = false := by
    rw [← write_dirs hw]; exact hs
  refine ⟨(fs.set (c.dir ++ [k]) (.file [])).set (c.dir ++ [k]) (.file b), ?_, ?_⟩
  · simp only [FileCache.writeFile, resolve_plain hk hd, hw, hb]
    simp [FS.write, hs']
  · intro p
    rw [Dict.get?_set, Dict.get?_set]
    by_cases h : p = c.dir ++ [k]
    · simp [h]
    · simp [Ne.symm h, h]

/-- Removing a file whose name is proper changes nothing else, even if it is that of a
directory. -/
theorem removeFile_other (c : FileCache ν) {fs : FS} {k : Txt} (hk : PlainName k) (hd : fs.isDir c.dir = true)
    {p : Path} (hp : p ≠ c.dir ++ [k]) : (c.removeFile fs k).get? p = fs.get? p := by
  by_cases hs : fs.isDir (c.dir ++ [k]) = false
  · rw [removeFile_get c hk hd hs, if_neg hp]
  · rw [Bool.not_eq_false, isDir_iff] at hs
    rcases hs with hs | hs
    · simp at hs
    · unfold FileCache.removeFile
      rw [resolve_plain hk hd]
      simp [FS.remove, hs]

/-- The cache in memory gets the same calls. -/
theorem superPut_cache (k : Key) (v : ν) (c : FileCache ν) (fs : FS) :
    (FileCache.superPut k v (c, fs)).2.1 = { c with cache := c.cache.put k v } := by
  unfold FileCache.superPut Naive.put
  simp only
  cases hf : (c.cache.insert k v).toFlush with
  | none => rfl
  | some k0 => cases k0 <;> rfl

theorem superPut_ok (k : Key) (v : ν) (c : FileCache ν) (fs : FS)
    (hn : ∀ k0, (c.cache.insert k v).toFlush = some k0 → k0 ≠ none) :
    FileCache.superPut k v (c, fs) = (.ok (), ({ c with cache := c.cache.put k v },
      match (c.cache.insert k v).toFlush with
      | some (some k0) => c.removeFile fs k0
      | _ => fs)) := by
  unfold FileCache.superPut Naive.put
  simp only
  cases hf : (c.cache.insert k v).toFlush with
  | none => rfl
  | some k0 =>
    cases k0 with
    | none => exact absurd rfl (hn none hf)
    | some k0 => rfl

theorem toFlush_mem {c : Naive Key ν} {k : Key} {v : ν} {k0 : Key}
    (h : (c.insert k v).toFlush = some k0) : k0 ∈ c.keys ++ [k] := by
  unfold Naive.toFlush at h
  split at h
  · exact List.mem_of_head? h
  · cases h

theorem pop_keys_sub {κ : Type} [DecidableEq κ] (c : Naive κ ν) (k : κ) :
    ∀ x ∈ (c.pop k).2.keys, x ∈ c.keys := fun _ h => List.mem_of_mem_erase h

theorem pop_keys_length {κ : Type} [DecidableEq κ] (c : Naive κ ν) (k : κ) :
    (c.pop k).2.keys.length ≤ c.keys.length := List.length_erase_le

/-- None is never a key in a FileCache. -/
theorem none_not_key (s : FileCache ν × FS) (call : CacheCall Key ν) (h : none ∉ s.1.cache.keys) :
    none ∉ (fileCall O s call).1.cache.keys := by
  obtain ⟨c, fs⟩ := s
  have hpop : ∀ (n : Naive Key ν) (k : Key), none ∉ n.keys → none ∉ (n.pop k).2.keys :=
    fun n k hn hm => hn (pop_keys_sub n k _ hm)
  cases call with
  | pop k => cases k <;> exact hpop _ _ h
  | put k v =>
    unfold fileCall FileCache.put
    simp only
    cases k with
    | none => exact h
    | some k =>
      simp only
      have hput : none ∉ (c.cache.put (some k) v).keys := by
        unfold Naive.put
        have hins : none ∉ (c.cache.insert (some k) v).keys := by
          simp only [Naive.insert, List.mem_append, List.mem_singleton, reduceCtorEq, or_false]
          exact h
        cases (c.cache.insert (some k) v).toFlush with
        | none => exact hins
        | some k0 => exact hpop _ _ hins
      by_cases ha : c.accept k = true
      · rw [if_pos ha, M.bind_run]
        have h1 := superPut_cache (some k) v c fs
        cases hp : FileCache.superPut (some k) v (c, fs) with
        | mk x s' =>
          rw [hp] at h1
          simp only at h1
          cases x with
          | error e => simp only; rw [h1]; exact hput
          | ok _ =>
            simp only
            rw [(writeFile_same O k v s').2, h1]; exact hput
      · rw [if_neg ha]; exact h

theorem none_not_key_calls (s : FileCache ν × FS) (calls : List (CacheCall Key ν)) (h : none ∉ s.1.cache.keys) :
    none ∉ (fileCalls O calls s).1.cache.keys := by
  induction calls generalizing s with
  | nil => exact h
  | cons a r ih => exact ih _ (none_not_key O s a h)

/-- A put that can be carried out: no exception, the memory cache is updated, the file
of the evicted key goes, and then the file is written. -/
theorem put_good (c : FileCache ν) (fs : FS) {k : Txt} {v : ν} {b : List Nat} (hk : PlainName k)
    (ha : c.accept k = true) (hd : fs.isDir c.dir = true) (hs : fs.isDir (c.dir ++ [k]) = false)
    (hb : O.bytes v = .ok b) (hn : none ∉ c.cache.keys) :
    ∃ fs', FileCache.put O (some k) v (c, fs) = (.ok (), ({ c with cache := c.cache.put (some k) v }, fs')) ∧
      ∀ p, fs'.get? p = if p = c.dir ++ [k] then some (.file b) else
        (match (c.cache.insert (some k) v).toFlush with
          | some (some k0) => c.removeFile fs k0
          | _ => fs).get? p := by
  have hflush : ∀ k0, (c.cache.insert (some k) v).toFlush = some k0 → k0 ≠ none := by
    intro k0 h0 hh
    have := toFlush_mem h0
    rw [hh] at this
    simp only [List.mem_append, List.mem_singleton, reduceCtorEq, or_false] at this
    exact hn this
  have h1 := superPut_ok (some k) v c fs hflush
  generalize hfs1 : (match (c.cache.insert (some k) v).toFlush with
      | some (some k0) => c.removeFile fs k0
      | _ => fs) = fs1 at h1
  have hsame : SameDirs fs fs1 := by
    have := superPut_same (some k) v (c, fs)
    rw [h1] at this
    exact this.2.2.2.2
  obtain ⟨fs', h2, h3⟩ := writeFile_ok O ({ c with cache := c.cache.put (some k) v }) (fs := fs1) hk
    (by rw [← hsame]; exact hd) (by rw [← hsame]; exact hs) hb
  refine ⟨fs', ?_, ?_⟩
  · unfold FileCache.put
    simp only [ha, if_true]
    rw [M.bind_run_ok h1, h2]
  · exact h3

/-! ### The directory at the start -/

/-- A file system with proper names. -/
structure FSWF (fs : FS) : Prop where
  nodup : fs.Nodup
  plain : ∀ p ∈ fs.keys, ∀ n ∈ p, PlainName n

/-- There is a message file of this name. -/
def Matching (fs : FS) (dir : Path) (accept : Txt → Bool) (name : Txt) : Prop :=
  (∃ b, fs.get? (dir ++ [name]) = some (.file b)) ∧ accept name = true

theorem mem_listdir (fs : FS) (dir : Path) (name : Txt) : name ∈ fs.listdir dir ↔ dir ++ [name] ∈ fs.keys := by
  unfold FS.listdir Dict.keys
  rw [List.mem_filterMap, List.mem_map]
  constructor
  · rintro ⟨e, he, h⟩
    refine ⟨e, he, ?_⟩
    rcases List.eq_nil_or_concat e.1 with h0 | ⟨l, a, h0⟩
    · rw [h0] at h; simp at h
    · rw [List.concat_eq_append] at h0
      rw [h0] at h ⊢
      simp only [List.getLast?_concat, List.dropLast_concat, Option.ite_none_right_eq_some,
        Option.some.injEq] at h
      rw [h.1, h.2]
  · rintro ⟨e, he, h⟩
    refine ⟨e, he, ?_⟩
    rw [h]
    simp

theorem listdir_nodup (fs : FS) (dir : Path) (h : fs.Nodup) : (fs.listdir dir).Nodup := by
  unfold FS.listdir
  have h' : (fs.entries.map (·.1)).Nodup := h
  generalize fs.entries = l at h'
  induction l with
  | nil => simp
  | cons e t ih =>
    simp only [List.map_cons, List.nodup_cons] at h'
    have ih := ih h'.2
    rw [List.filterMap_cons]
    split
    · exact ih
    · rename_i n hn
      rw [List.nodup_cons]
      refine ⟨?_, ih⟩
      intro hm
      rw [List.mem_filterMap] at hm
      obtain ⟨x, hx, hxn⟩ := hm
      have key : ∀ (p : Path), (match p.getLast? with
          | some n => if p.dropLast = dir then some n else none
          | none => none) = some n → p = dir ++ [n] := by
        intro p hp
        rcases List.eq_nil_or_concat p with h0 | ⟨l, a, h0⟩
        · rw [h0] at hp; simp at hp
        · rw [List.concat_eq_append] at h0
          rw [h0] at hp ⊢
          simp only [List.getLast?_concat, List.dropLast_concat, Option.ite_none_right_eq_some,
            Option.some.injEq] at hp
          rw [hp.1, hp.2]
      have h1 := key _ hn
      have h2 := key _ hxn
      exact h'.1 (List.mem_map.2 ⟨x, hx, h2.trans h1.symm⟩)

theorem mem_fileKeys (f : FileCache ν) (fs : FS) (h : FSWF fs) (hd : fs.isDir f.dir = true) (name : Txt) :
    name ∈ f.keys fs ↔ Matching fs f.dir f.accept name := by
  unfold FileCache.keys FileCache.isMessage
  rw [List.mem_filter, mem_listdir, Bool.and_eq_true]
  constructor
  · rintro ⟨h1, h2, h3⟩
    have hp : PlainName name := h.plain _ h1 name (by simp)
    refine ⟨?_, h3⟩
    unfold FS.isFile at h2
    rw [resolve_plain hp hd] at h2
    simp only at h2
    cases hg : fs.get? (f.dir ++ [name]) with
    | none => rw [hg] at h2; cases h2
    | some nd =>
      cases nd with
      | dir => rw [hg] at h2; cases h2
      | file b => exact ⟨b, rfl⟩
  · rintro ⟨⟨b, hb⟩, h3⟩
    have h1 : f.dir ++ [name] ∈ fs.keys := (Dict.mem_keys_iff _ _).2 ⟨_, hb⟩
    have hp : PlainName name := h.plain _ h1 name (by simp)
    refine ⟨h1, ?_, h3⟩
    unfold FS.isFile
    rw [resolve_plain hp hd]
    simp [hb]

theorem fileCache_new {dir : Path} {accept : Txt → Bool} {size : Option Int} {fs : FS} {f : FileCache ν}
    (h : FileCache.new dir accept size fs = .ok f) :
    fs.isDir dir = true ∧ f.dir = dir ∧ f.accept = accept ∧ f.cache = .new size ∧
    f.numFiles = (f.keys fs).length := by
  unfold FileCache.new at h
  by_cases hd : fs.isDir dir = true
  · rw [if_pos hd] at h
    cases h
    exact ⟨hd, rfl, rfl, rfl, rfl⟩
  · rw [if_neg hd] at h; cases h

/-- The two outcomes of opening a file corpus. -/
theorem newFileCorpus_cases {obj : Nat} {dir : Path} {accept : Txt → Bool} {size : Option Int}
    {w w' : World ν σ} {c : Corpus} (h : newFileCorpus obj dir accept size w = .ok (c, w')) :
    ∃ f, FileCache.new dir accept size w.fs = .ok f ∧ w'.fs = w.fs ∧ w'.user = w.user ∧
      ((f.numFiles ≠ 0 ∧ c = ⟨obj, w.heap.length⟩ ∧ w'.heap = w.heap ++ [.file f]) ∨
       (f.numFiles = 0 ∧ c = ⟨obj, w.heap.length + 1⟩ ∧ w'.heap = w.heap ++ [.file f] ++ [.naive (.new none)])) := by
  unfold newFileCorpus at h
  cases hf : FileCache.new dir accept size w.fs with
  | error e => rw [hf] at h; cases h
  | ok f =>
    rw [hf] at h
    refine ⟨f, rfl, ?_⟩
    simp only [Except.ok.injEq] at h
    by_cases h0 : f.numFiles = 0
    · simp [newCorpus, CacheObj.len, FileCache.len, h0] at h
      obtain ⟨rfl, rfl⟩ := h
      refine ⟨rfl, rfl, .inr ⟨h0, rfl, by simp⟩⟩
    · simp [newCorpus, CacheObj.len, FileCache.len, h0] at h
      obtain ⟨rfl, rfl⟩ := h
      exact ⟨rfl, rfl, .inl ⟨h0, rfl, rfl⟩⟩

/-- Opened on a directory with messages, the corpus works on the files. -/
theorem newFileCorpus_file {obj : Nat} {dir : Path} {accept : Txt → Bool} {size : Option Int}
    {w w' : World ν σ} {c : Corpus} (h : newFileCorpus obj dir accept size w = .ok (c, w'))
    (hne : corpusLen c w' ≠ 0) :
    ∃ f, w'.heap[c.cache]? = some (.file f) ∧ w'.fs.isDir dir = true ∧ f.dir = dir ∧ f.accept = accept ∧
      f.cache = .new size ∧ f.numFiles = (f.keys w'.fs).length := by
  obtain ⟨f, hf, hfs, -, h1 | h1⟩ := newFileCorpus_cases h
  · obtain ⟨-, rfl, h3⟩ := h1
    obtain ⟨g1, g2, g3, g4, g5⟩ := fileCache_new hf
    exact ⟨f, by rw [h3]; simp, by rw [hfs]; exact g1, g2, g3, g4, by rw [hfs]; exact g5⟩
  · obtain ⟨-, rfl, h3⟩ := h1
    exfalso
    apply hne
    unfold corpusLen
    rw [h3]
    have : (w.heap ++ [CacheObj.file f] ++ [CacheObj.naive (.new none)])[w.heap.length + 1]? =
        some (.naive (.new none)) := by
      rw [List.getElem?_append_right (by simp)]; simp
    simp only [this]
    rfl

/-! ### C50 -/

/-- The claim: the length is the number of messages. -/
def C50Claim : Prop :=
  ∀ (O : MailOps (Option Txt × List Nat)) (obj : Nat) (dir : Path) (accept : Txt → Bool) (size : Option Int)
    (w w' : World (Option Txt × List Nat) Unit) (c : Corpus) (ops : List (Op (Option Txt × List Nat) Unit)),
    FSWF w.fs → newFileCorpus obj dir accept size w = .ok (c, w') → (∀ op ∈ ops, opCorpus op = c) →
    corpusLen c (runOps O (fun _ _ _ => pure ()) ⟨[], []⟩ ops w') =
      (corpusKeys c (runOps O (fun _ _ _ => pure ()) ⟨[], []⟩ ops w')).length

/-- **C50**, true part: when the corpus is opened, its keys are the names of the message
files, each once, and the length is their number. -/
theorem C50_at_construction_partial {obj : Nat} {dir : Path} {accept : Txt → Bool} {size : Option Int}
    {w w' : World ν σ} {c : Corpus} (hw : FSWF w.fs) (h : newFileCorpus obj dir accept size w = .ok (c, w')) :
    corpusLen c w' = (corpusKeys c w').length ∧ (corpusKeys c w').Nodup ∧
    ∀ k, k ∈ corpusKeys c w' ↔ ∃ name, k = some name ∧ Matching w.fs dir accept name := by
  obtain ⟨f, hf, hfs, -, h1⟩ := newFileCorpus_cases h
  obtain ⟨g1, g2, g3, g4, g5⟩ := fileCache_new hf
  have hmem : ∀ name, name ∈ f.keys w.fs ↔ Matching w.fs dir accept name := by
    intro name
    rw [mem_fileKeys f w.fs hw (by rw [g2]; exact g1), g2, g3]
  rcases h1 with ⟨-, rfl, h3⟩ | ⟨h0, rfl, h3⟩
  · have hh : w'.heap[w.heap.length]? = some (.file f) := by rw [h3]; simp
    simp only [corpusLen, corpusKeys, hh, CacheObj.len, FileCache.len, hfs]
    refine ⟨by rw [g5]; simp, ?_, ?_⟩
    · refine List.Nodup.map (fun _ _ h => Option.some.inj h) ?_
      exact List.Nodup.filter _ (listdir_nodup _ _ hw.nodup)
    · intro k
      rw [List.mem_map]
      constructor
      · rintro ⟨n, hn, rfl⟩; exact ⟨n, rfl, (hmem n).1 hn⟩
      · rintro ⟨n, rfl, hn⟩; exact ⟨n, (hmem n).2 hn, rfl⟩
  · have hh : w'.heap[w.heap.length + 1]? = some (.naive (.new none)) := by
      rw [h3, List.getElem?_append_right (by simp)]; simp
    simp only [corpusLen, corpusKeys, hh, CacheObj.len]
    refine ⟨rfl, by simp [Naive.new, Dict.keys, Dict.empty], ?_⟩
    intro k
    constructor
    · intro hk; simp [Naive.new, Dict.keys, Dict.empty] at hk
    · rintro ⟨n, rfl, hn⟩
      have h' := (hmem n).2 hn
      rw [h0] at g5
      rw [List.length_eq_zero_iff.1 g5.symm] at h'
      simp at h'

/-- The length never changes, whatever is added or removed. -/
theorem C50_constant (run : R → Observer ν σ) (S : Signals R) {obj : Nat} {dir : Path} {accept : Txt → Bool}
    {size : Option Int} {w w' : World ν σ} {c : Corpus} (h : newFileCorpus obj dir accept size w = .ok (c, w'))
    (hne : corpusLen c w' ≠ 0) (ops : List (Op ν R)) (hops : ∀ op ∈ ops, opCorpus op = c) :
    corpusLen c (runOps O run S ops w') = corpusLen c w' := by
  obtain ⟨f, hf, -⟩ := newFileCorpus_file h hne
  have h1 := (runOps_file O run S c ops hops w' f hf).1
  have h2 := (fileCalls_same O (f, w'.fs) (ops.map (opCall O))).2.2.1
  simp only [corpusLen, h1, hf, CacheObj.len, FileCache.len]
  exact h2

/-! ### C49 -/

/-- A directory with one message file `a`. -/
def oneFile : FS := ⟨[([txt "d"], .dir), ([txt "d", txt "a"], .file [1, 2])]⟩

/-- The claim: the message is in the file of its name until it is removed, or replaced
by another with the same id. -/
def C49Claim : Prop :=
  ∀ (O : MailOps (Option Txt × List Nat)) (obj : Nat) (dir : Path) (accept : Txt → Bool) (size : Option Int)
    (w w' : World (Option Txt × List Nat) Unit) (c : Corpus) (ops : List (Op (Option Txt × List Nat) Unit))
    (it : SetIter Unit) (m : Option Txt × List Nat) (name : Txt) (b : List Nat),
    newFileCorpus obj dir accept size w = .ok (c, w') →
    (∀ op ∈ ops, opCorpus op = c ∧ GoodCall O dir accept w.fs (opCall O op)) →
    (∀ op ∈ ops, ∀ m', opCall O op ≠ .put (some name) m' ∧ opCall O op ≠ .pop (some name)) →
    O.id m = some name → PlainName name → accept name = true → w.fs.isDir (dir ++ [name]) = false →
    O.bytes m = .ok b →
    (runOps O (fun _ _ _ => pure ()) ⟨[], []⟩ (.add it c m none true :: ops) w').fs.get? (dir ++ [name]) =
      some (.file b)

/-- **C49**, true part: right after the message is added it is in the file, if the
corpus was opened on a directory with messages; whatever happened before. -/
theorem C49_written_partial (run : R → Observer ν σ) (S : Signals R) {obj : Nat} {dir : Path}
    {accept : Txt → Bool} {size : Option Int} {w w' : World ν σ} {c : Corpus}
    (h : newFileCorpus obj dir accept size w = .ok (c, w')) (hne : corpusLen c w' ≠ 0)
    (ops : List (Op ν R)) (hops : ∀ op ∈ ops, opCorpus op = c) (it : SetIter R) (m : ν) (i : Option Txt)
    (e : Bool) (name : Txt) (b : List Nat) (hk : (i.orElse fun _ => O.id m) = some name) (hp : PlainName name)
    (ha : accept name = true) (hs : w.fs.isDir (dir ++ [name]) = false) (hb : O.bytes m = .ok b) :
    (runOps O run S (ops ++ [.add it c m i e]) w').fs.get? (dir ++ [name]) = some (.file b) := by
  obtain ⟨f, hf, hd, f1, f2, f3, -⟩ := newFileCorpus_file h hne
  obtain ⟨-, -, hfs, -⟩ := newFileCorpus_cases h
  have hops' : ∀ op ∈ ops ++ [.add it c m i e], opCorpus op = c := by
    intro op hop
    rcases List.mem_append.1 hop with h' | h'
    · exact hops op h'
    · rw [List.mem_singleton.1 h']; rfl
  rw [(runOps_file O run S c _ hops' w' f hf).2, List.map_append, fileCalls, List.foldl_append]
  change (fileCall O (fileCalls O (ops.map (opCall O)) (f, w'.fs)) (opCall O (.add it c m i e))).2.get? _ = _
  have hsame := fileCalls_same O (f, w'.fs) (ops.map (opCall O))
  have hnone := none_not_key_calls O (f, w'.fs) (ops.map (opCall O)) (by rw [f3]; simp [Naive.new])
  generalize fileCalls O (ops.map (opCall O)) (f, w'.fs) = s at hsame hnone
  obtain ⟨g, fs⟩ := s
  obtain ⟨s1, s2, -, -, s5⟩ := hsame
  simp only at s1 s2 s5 hnone
  have hdir : g.dir = dir := s1.trans f1
  obtain ⟨fs', p1, p2⟩ := put_good O g fs (v := m) hp (by rw [s2, f2]; exact ha)
    (by rw [hdir, ← s5]; exact hd) (by rw [hdir, ← s5, hfs]; exact hs) hb hnone
  have hcall : opCall O (.add it c m i e : Op ν R) = .put (some name) m := by
    rw [← hk]; cases i <;> rfl
  simp only [hcall, fileCall, p1]
  rw [p2, hdir, if_pos rfl]

/-- A message whose name does not match the filter is refused, and nothing happens. -/
theorem C49_rejected (run : R → Observer ν σ) (S : Signals R) (it : SetIter R) (w : World ν σ) (c : Corpus)
    (f : FileCache ν) (h : w.heap[c.cache]? = some (.file f)) (m : ν) (i : Option Txt) (e : Bool) (name : Txt)
    (hk : (i.orElse fun _ => O.id m) = some name) (ha : f.accept name = false) :
    addMessage O it run S c m i e w = (.error .valueError, w) := by
  have hkey : keyOf O m i = some name := by rw [← hk]; cases i <;> rfl
  refine M.bind_run_error ?_
  rw [hkey]
  have hset : w.heap.set c.cache (.file f) = w.heap := by
    obtain ⟨hlt, he⟩ := List.getElem?_eq_some_iff.1 h
    rw [← he]; exact List.set_getElem_self hlt
  simp [cachePut, h, FileCache.put, ha, hset]

/-- How many messages are added. -/
def putCount : List (CacheCall Key ν) → Nat
  | [] => 0
  | .put _ _ :: r => putCount r + 1
  | .pop _ :: r => putCount r

/-- What is in the file after some calls: what was put last, nothing if it was popped
since, and what was there before if it was not touched. -/
def lastFile (name : Txt) : List (CacheCall Key ν) → Option Node → Option Node
  | [], o => o
  | .put k v :: r, o => lastFile name r (if k = some name then
      (match O.bytes v with
        | .ok b => some (.file b)
        | .error _ => o) else o)
  | .pop k :: r, o => lastFile name r (if k = some name then none else o)

theorem insert_toFlush_none {c : Naive Key ν} {k : Key} {v : ν}
    (h : ∀ n, c.maxSize = some n → (c.keys.length : Int) < n) : (c.insert k v).toFlush = none := by
  cases hm : c.maxSize with
  | none => exact toFlush_none hm
  | some n =>
    have := h n hm
    rw [toFlush_insert hm, if_neg (by omega)]

theorem pop_file (f : FileCache ν) (fs : FS) {k : Txt} (hk : PlainName k) (hd : fs.isDir f.dir = true) {p : Path}
    (hp : fs.isDir p = false) :
    (FileCache.pop (some k) (f, fs)).2.2.get? p = if p = f.dir ++ [k] then none else fs.get? p := by
  simp only [FileCache.pop]
  by_cases h : p = f.dir ++ [k]
  · rw [removeFile_get { f with cache := (f.cache.pop (some k)).2 } hk hd (by rw [← h]; exact hp)]
  · rw [if_neg h]
    exact removeFile_other { f with cache := (f.cache.pop (some k)).2 } hk hd h

theorem append_inj_name {dir : Path} {a b : Txt} : dir ++ [a] = dir ++ [b] ↔ a = b := by simp

theorem kept_calls (dir : Path) (accept : Txt → Bool) (fs0 : FS) (name : Txt)
    (hs : fs0.isDir (dir ++ [name]) = false) (calls : List (CacheCall Key ν))
    (hg : ∀ call ∈ calls, GoodCall O dir accept fs0 call) (f : FileCache ν) (fs : FS)
    (h1 : f.dir = dir) (h2 : f.accept = accept) (h3 : SameDirs fs0 fs) (hd : fs0.isDir dir = true)
    (h4 : none ∉ f.cache.keys)
    (h5 : ∀ n, f.cache.maxSize = some n → (f.cache.keys.length + putCount calls : Int) ≤ n) :
    (fileCalls O calls (f, fs)).2.get? (dir ++ [name]) = lastFile O name calls (fs.get? (dir ++ [name])) := by
  induction calls generalizing f fs with
  | nil => rfl
  | cons call r ih =>
    have hg1 := hg call (by simp)
    have hgr : ∀ call ∈ r, GoodCall O dir accept fs0 call := fun x hx => hg x (by simp [hx])
    have hn' := none_not_key O (f, fs) call h4
    have hsame := fileCall_same O (f, fs) call
    cases call with
    | pop k =>
      obtain ⟨nm, rfl, hp⟩ := hg1
      have := ih hgr (fileCall O (f, fs) (.pop (some nm))).1 (fileCall O (f, fs) (.pop (some nm))).2
        (hsame.1.trans h1) (hsame.2.1.trans h2) (h3.trans hsame.2.2.2.2) hn' (by
          intro n hn
          have h5' := h5 n (hsame.2.2.2.1 ▸ hn)
          have : (fileCall O (f, fs) (.pop (some nm))).1.cache.keys.length ≤ f.cache.keys.length :=
            pop_keys_length _ _
          simp only [putCount] at h5'
          omega)
      refine this.trans ?_
      simp only [lastFile]
      congr 1
      have hpf := pop_file f fs (k := nm) hp (by rw [h1, ← h3]; exact hd) (p := dir ++ [name])
        (by rw [← h3]; exact hs)
      refine hpf.trans ?_
      rw [h1]
      simp only [append_inj_name, Option.some.injEq, eq_comm]
    | put k v =>
      obtain ⟨nm, b, rfl, hp, ha, hs', hb⟩ := hg1
      obtain ⟨fs', p1, p2⟩ := put_good O f fs (v := v) hp (by rw [h2]; exact ha)
        (by rw [h1, ← h3]; exact hd) (by rw [h1, ← h3]; exact hs') hb h4
      have hfl : (f.cache.insert (some nm) v).toFlush = none := by
        apply insert_toFlush_none
        intro n hn
        have := h5 n hn
        simp only [putCount] at this
        omega
      have hput : f.cache.put (some nm) v = f.cache.insert (some nm) v := by
        unfold Naive.put; rw [hfl]
      rw [hfl] at p2
      simp only at p2
      have hcall : fileCall O (f, fs) (.put (some nm) v) = ({ f with cache := f.cache.put (some nm) v }, fs') := by
        simp only [fileCall, p1]
      rw [hcall] at hn' hsame
      have := ih hgr { f with cache := f.cache.put (some nm) v } fs'
        (hsame.1.trans h1) (hsame.2.1.trans h2) (h3.trans hsame.2.2.2.2) hn' (by
          intro n hn
          have h5' := h5 n (hsame.2.2.2.1 ▸ hn)
          rw [hput]
          simp only [putCount] at h5'
          simp only [Naive.insert, List.length_append, List.length_singleton]
          push_cast at h5' ⊢
          omega)
      simp only [fileCalls, List.foldl_cons, hcall]
      refine this.trans ?_
      simp only [lastFile, hb]
      congr 1
      rw [p2, h1]
      simp only [append_inj_name, Option.some.injEq, eq_comm]

/-- **C49**, true part: as long as no more than `cache_size` messages are added, every
file is what the last operation with its name made it. -/
theorem C49_kept_partial (run : R → Observer ν σ) (S : Signals R) {obj : Nat} {dir : Path}
    {accept : Txt → Bool} {size : Option Int} {w w' : World ν σ} {c : Corpus}
    (h : newFileCorpus obj dir accept size w = .ok (c, w')) (hne : corpusLen c w' ≠ 0)
    (ops : List (Op ν R)) (hops : ∀ op ∈ ops, opCorpus op = c)
    (hg : ∀ op ∈ ops, GoodCall O dir accept w.fs (opCall O op))
    (hn : ∀ n, size = some n → (putCount (ops.map (opCall O)) : Int) ≤ n)
    (name : Txt) (hs : w.fs.isDir (dir ++ [name]) = false) :
    (runOps O run S ops w').fs.get? (dir ++ [name]) =
      lastFile O name (ops.map (opCall O)) (w.fs.get? (dir ++ [name])) := by
  obtain ⟨f, hf, hd, f1, f2, f3, -⟩ := newFileCorpus_file h hne
  obtain ⟨-, -, hfs, -⟩ := newFileCorpus_cases h
  rw [(runOps_file O run S c ops hops w' f hf).2, ← hfs]
  refine kept_calls O dir accept w'.fs name (by rw [hfs]; exact hs) _ ?_ f w'.fs f1 f2 (.refl _) hd
    (by rw [f3]; simp [Naive.new]) ?_
  · intro call hcall
    obtain ⟨op, hop, rfl⟩ := List.mem_map.1 hcall
    rw [hfs]
    exact hg op hop
  · intro n hn'
    rw [f3] at hn' ⊢
    have := hn n hn'
    simpa [Naive.new] using this

/-- Opened on a directory without messages, the corpus never touches the disk. -/
theorem C49_empty_directory (run : R → Observer ν σ) (S : Signals R) {obj : Nat} {dir : Path}
    {accept : Txt → Bool} {size : Option Int} {w w' : World ν σ} {c : Corpus}
    (h : newFileCorpus obj dir accept size w = .ok (c, w')) (he : corpusLen c w' = 0)
    (ops : List (Op ν R)) (hops : ∀ op ∈ ops, opCorpus op = c) :
    (runOps O run S ops w').fs = w.fs ∧
    ∀ key, corpusGet O c (runOps O run S ops w') key = .ok (lastOp O c key ops none) := by
  obtain ⟨f, hf, hfs, -, h1⟩ := newFileCorpus_cases h
  have hh : w'.heap[c.cache]? = some (.naive (.new none)) := by
    rcases h1 with ⟨h0, rfl, h3⟩ | ⟨-, rfl, h3⟩
    · exfalso
      apply h0
      have : w'.heap[w.heap.length]? = some (.file f) := by rw [h3]; simp
      simpa [corpusLen, this, CacheObj.len, FileCache.len] using he
    · rw [h3, List.getElem?_append_right (by simp)]; simp
  refine ⟨?_, fun key => unbounded_get O run S ops w' c hh key⟩
  rw [← hfs]
  clear he h1 hfs h hf
  generalize Naive.new none = n at hh
  induction ops generalizing w' n with
  | nil => rfl
  | cons op r ih =>
    have hc := hops op (by simp)
    have h1 := cacheStep_naive O op w' c.cache n hh
    rw [← (runOp_caches O run S op w').1] at h1
    refine (ih (fun o ho => hops o (by simp [ho])) _ h1).trans ?_
    rw [(runOp_caches O run S op w').2]
    cases op with
    | add it c' m k e =>
      have hc : c' = c := hc
      subst hc
      simp [cacheStep, cachePut, hh]
    | remove it c' m e =>
      have hc : c' = c := hc
      subst hc
      simp [cacheStep, cachePop, hh]

/-- The key of a call. -/
def callKey : CacheCall Key ν → Key
  | .put k _ => k
  | .pop k => k

/-- What is known of the files while the messages of the queue `q` are in memory, and
the names of `touched` have been used. -/
structure DiskInv (dir : Path) (fs0 : FS) (q : List (Key × ν)) (touched : List Key) (fs : FS) : Prop where
  dirs : SameDirs fs0 fs
  names : ∀ e ∈ q, ∃ name, e.1 = some name ∧ PlainName name ∧ fs0.isDir (dir ++ [name]) = false ∧ some name ∈ touched
  held : ∀ name v, (some name, v) ∈ q → ∃ b, O.bytes v = .ok b ∧ fs.get? (dir ++ [name]) = some (.file b)
  gone : ∀ name, fs0.isDir (dir ++ [name]) = false → some name ∈ touched → some name ∉ q.map (·.1) →
    fs.get? (dir ++ [name]) = none
  orig : ∀ name, some name ∉ touched → fs.get? (dir ++ [name]) = fs0.get? (dir ++ [name])

theorem DiskInv.pop {dir : Path} {fs0 fs : FS} {q : List (Key × ν)} {touched : List Key}
    (h : DiskInv O dir fs0 q touched fs) (f : FileCache ν) (h1 : f.dir = dir) (hd : fs0.isDir dir = true)
    {nm : Txt} (hp : PlainName nm) :
    DiskInv O dir fs0 (q.filter (fun e => e.1 ≠ some nm)) (some nm :: touched)
      (FileCache.pop (some nm) (f, fs)).2.2 := by
  have hd' : fs.isDir f.dir = true := by rw [h1, ← h.dirs]; exact hd
  have hother : ∀ name, name ≠ nm →
      (FileCache.pop (some nm) (f, fs)).2.2.get? (dir ++ [name]) = fs.get? (dir ++ [name]) := by
    intro name hne
    exact removeFile_other { f with cache := (f.cache.pop (some nm)).2 } hp hd'
      (by rw [h1]; simpa using hne)
  refine ⟨h.dirs.trans (pop_same (some nm) (f, fs)).2.2.2.2, ?_, ?_, ?_, ?_⟩
  · intro e he
    obtain ⟨n, e1, e2, e3, e4⟩ := h.names e (List.mem_filter.1 he).1
    exact ⟨n, e1, e2, e3, by simp [e4]⟩
  · intro name v hm
    obtain ⟨hm1, hm2⟩ := List.mem_filter.1 hm
    have hne : name ≠ nm := by simpa using hm2
    rw [hother name hne]
    exact h.held name v hm1
  · intro name hs ht hq
    by_cases hne : name = nm
    · subst hne
      rw [pop_file f fs hp hd' (by rw [← h.dirs]; exact hs), h1, if_pos rfl]
    · rw [hother name hne]
      refine h.gone name hs (by simpa [hne] using ht) ?_
      intro hm
      apply hq
      obtain ⟨e, he, hee⟩ := List.mem_map.1 hm
      exact List.mem_map.2 ⟨e, List.mem_filter.2 ⟨he, by simp [hee, hne]⟩, hee⟩
  · intro name ht
    simp only [List.mem_cons, not_or, Option.some.injEq] at ht
    rw [hother name ht.1]
    exact h.orig name ht.2

/-- Writing the file of a fresh message. -/
theorem DiskInv.write {dir : Path} {fs0 fs fs' : FS} {q : List (Key × ν)} {touched : List Key}
    (h : DiskInv O dir fs0 q touched fs) {nm : Txt} {v : ν} {b : List Nat} (hp : PlainName nm)
    (hs : fs0.isDir (dir ++ [nm]) = false) (hb : O.bytes v = .ok b) (hfresh : some nm ∉ q.map (·.1))
    (hdirs : SameDirs fs fs')
    (hw : ∀ p, fs'.get? p = if p = dir ++ [nm] then some (.file b) else fs.get? p) :
    DiskInv O dir fs0 (q ++ [(some nm, v)]) (some nm :: touched) fs' := by
  have hother : ∀ name, name ≠ nm → fs'.get? (dir ++ [name]) = fs.get? (dir ++ [name]) := by
    intro name hne
    rw [hw, if_neg (by simpa using hne)]
  refine ⟨h.dirs.trans hdirs, ?_, ?_, ?_, ?_⟩
  · intro e he
    rcases List.mem_append.1 he with he | he
    · obtain ⟨n, e1, e2, e3, e4⟩ := h.names e he
      exact ⟨n, e1, e2, e3, by simp [e4]⟩
    · rw [List.mem_singleton.1 he]
      exact ⟨nm, rfl, hp, hs, by simp⟩
  · intro name u hm
    rcases List.mem_append.1 hm with hm' | hm'
    · have hne : name ≠ nm := by
        intro hh
        exact hfresh (List.mem_map.2 ⟨(some name, u), hm', by rw [hh]⟩)
      rw [hother name hne]
      exact h.held name u hm'
    · have := List.mem_singleton.1 hm'
      cases this
      exact ⟨b, hb, by rw [hw, if_pos rfl]⟩
  · intro name hs' ht hq
    simp only [List.map_append, List.map_cons, List.map_nil, List.mem_append, List.mem_singleton, not_or,
      Option.some.injEq] at hq
    rw [hother name hq.2]
    exact h.gone name hs' (by simpa [hq.2] using ht) hq.1
  · intro name ht
    simp only [List.mem_cons, not_or, Option.some.injEq] at ht
    rw [hother name ht.1]
    exact h.orig name ht.2

theorem DiskInv.touch {dir : Path} {fs0 fs : FS} {q : List (Key × ν)} {t t' : List Key}
    (h : DiskInv O dir fs0 q t fs) (ht : ∀ k, k ∈ t ↔ k ∈ t') : DiskInv O dir fs0 q t' fs where
  dirs := h.dirs
  names e he := by
    obtain ⟨n, e1, e2, e3, e4⟩ := h.names e he
    exact ⟨n, e1, e2, e3, (ht _).1 e4⟩
  held := h.held
  gone n h1 h2 h3 := h.gone n h1 ((ht _).2 h2) h3
  orig n h1 := h.orig n (fun hh => h1 ((ht _).1 hh))

theorem exact_calls (dir : Path) (accept : Txt → Bool) (size : Option Int) (hn : ∀ n, size = some n → 1 ≤ n)
    (fs0 : FS) (hd : fs0.isDir dir = true) (calls : List (CacheCall Key ν))
    (hg : ∀ call ∈ calls, GoodCall O dir accept fs0 call) (f : FileCache ν) (fs : FS) (q : List (Key × ν))
    (touched : List Key) (h1 : f.dir = dir) (h2 : f.accept = accept) (h3 : FifoInv size q f.cache)
    (h4 : DiskInv O dir fs0 q touched fs) (hf : FreshPuts (size.map Int.toNat) calls q) :
    DiskInv O dir fs0 (fifo (size.map Int.toNat) calls q) (touched ++ calls.map callKey)
      (fileCalls O calls (f, fs)).2 := by
  induction calls generalizing f fs q touched with
  | nil => simpa [fifo, fileCalls] using h4
  | cons call r ih =>
    have hg1 := hg call (by simp)
    have hgr : ∀ call ∈ r, GoodCall O dir accept fs0 call := fun x hx => hg x (by simp [hx])
    have hsame := fileCall_same O (f, fs) call
    have hkn : none ∉ f.cache.keys := by
      rw [h3.keys]
      intro hm
      obtain ⟨e, he, hee⟩ := List.mem_map.1 hm
      obtain ⟨n, e1, -⟩ := h4.names e he
      rw [hee] at e1
      cases e1
    cases call with
    | pop k =>
      obtain ⟨nm, rfl, hp⟩ := hg1
      have hstep := h4.pop O f h1 hd hp
      have := ih hgr (fileCall O (f, fs) (.pop (some nm))).1 (fileCall O (f, fs) (.pop (some nm))).2
        (q.filter (fun e => e.1 ≠ some nm)) (touched ++ [some nm]) (hsame.1.trans h1) (hsame.2.1.trans h2)
        (h3.pop (some nm)) (hstep.touch O (by simp [or_comm])) hf
      rw [List.append_assoc] at this
      exact this
    | put k v =>
      obtain ⟨nm, b, rfl, hp, ha, hs', hb⟩ := hg1
      have hfresh := hf.1
      obtain ⟨fs', p1, p2⟩ := put_good O f fs (v := v) hp (by rw [h2]; exact ha)
        (by rw [h1, ← h4.dirs]; exact hd) (by rw [h1, ← h4.dirs]; exact hs') hb hkn
      have hcall : fileCall O (f, fs) (.put (some nm) v) = ({ f with cache := f.cache.put (some nm) v }, fs') := by
        simp only [fileCall, p1]
      rw [hcall] at hsame
      have hfifo := h3.put v hfresh
      have hdisk : DiskInv O dir fs0 (fifoCall (size.map Int.toNat) q (.put (some nm) v))
          (touched ++ [some nm]) fs' := by
        rw [h1] at p2
        cases hm : size with
        | none =>
          rw [toFlush_none (c := f.cache.insert (some nm) v) (h3.size.trans hm)] at p2
          exact (h4.write O hp hs' hb hfresh ((fun p => ((h4.dirs p).symm.trans
            ((h4.dirs.trans hsame.2.2.2.2) p)))) p2).touch O (by simp [or_comm])
        | some n =>
          have hn1 := hn n hm
          rw [toFlush_insert (h3.size.trans hm), h3.keys] at p2
          have hlq : (q.map (·.1)).length = q.length := by simp
          by_cases hfull : n.toNat ≤ (q.map (·.1)).length
          · rw [if_pos hfull] at p2
            cases hq : q with
            | nil => rw [hq] at hfull; simp at hfull; omega
            | cons e0 q' =>
              obtain ⟨nm0, e1, e2, e3, e4⟩ := h4.names e0 (by rw [hq]; simp)
              have hhead : (q.map (·.1) ++ [some nm]).head? = some (some nm0) := by
                rw [hq]; simp [e1]
              rw [hhead] at p2
              simp only at p2
              have hpop := h4.pop O f h1 hd e2
              have hfilter : q.filter (fun e => e.1 ≠ some nm0) = q' := by
                have := h3.nodup
                rw [hq] at this ⊢
                rw [← e1]
                exact filter_head this
              rw [hfilter] at hpop
              have hfresh' : some nm ∉ q'.map (·.1) := by
                intro hm'
                apply hfresh
                rw [hq]
                simp only [List.map_cons, List.mem_cons]
                exact .inr hm'
              have hw := hpop.write O hp hs' hb hfresh' (fs' := fs')
                (fun p => (hpop.dirs p).symm.trans ((h4.dirs.trans hsame.2.2.2.2) p)) (fun p => by
                  rw [p2]; rfl)
              have hcall' : fifoCall (Option.map Int.toNat (some n)) (e0 :: q') (.put (some nm) v) =
                  q' ++ [(some nm, v)] := by
                have hb := h3.bound n hm
                rw [hq] at hb hfull
                simp only [List.length_cons, List.map_cons, List.length_map] at hb hfull
                simp only [fifoCall, lastOf, Option.map_some, List.length_append, List.length_cons,
                  List.length_nil]
                have : q'.length + 1 + (0 + 1) - n.toNat = 1 := by omega
                rw [this]
                rfl
              rw [hcall']
              refine hw.touch O ?_
              intro k
              simp only [List.mem_cons, List.mem_append, List.not_mem_nil, or_false]
              constructor
              · rintro (rfl | rfl | h)
                · exact .inr rfl
                · exact .inl e4
                · exact .inl h
              · rintro (h | rfl)
                · exact .inr (.inr h)
                · exact .inl rfl
          · rw [if_neg hfull] at p2
            have hcall' : fifoCall (Option.map Int.toNat (some n)) q (.put (some nm) v) =
                q ++ [(some nm, v)] := by
              simp only [fifoCall, lastOf, Option.map_some, List.length_append, List.length_cons,
                List.length_nil]
              have : q.length + (0 + 1) - n.toNat = 0 := by omega
              rw [this]
              rfl
            rw [hcall']
            exact (h4.write O hp hs' hb hfresh ((fun p => ((h4.dirs p).symm.trans
              ((h4.dirs.trans hsame.2.2.2.2) p)))) p2).touch O (by simp [or_comm])
      have := ih hgr { f with cache := f.cache.put (some nm) v } fs' _ (touched ++ [some nm])
        (hsame.1.trans h1) (hsame.2.1.trans h2) hfifo hdisk hf.2
      rw [List.append_assoc] at this
      simp only [fileCalls, List.foldl_cons, hcall]
      exact this

/-- **C49**, exactly, as long as every message added is new: the files are those of the
`cache_size` messages added last and not removed; a message of that queue is in its
file; the files of the others that were added, or were removed, are gone; the files
never mentioned are as they were. -/
theorem C49_exact_partial (run : R → Observer ν σ) (S : Signals R) {obj : Nat} {dir : Path}
    {accept : Txt → Bool} {size : Option Int} (hn : ∀ n, size = some n → 1 ≤ n) {w w' : World ν σ} {c : Corpus}
    (h : newFileCorpus obj dir accept size w = .ok (c, w')) (hne : corpusLen c w' ≠ 0)
    (ops : List (Op ν R)) (hops : ∀ op ∈ ops, opCorpus op = c)
    (hg : ∀ op ∈ ops, GoodCall O dir accept w.fs (opCall O op))
    (hf : FreshPuts (size.map Int.toNat) (ops.map (opCall O)) [])
    (name : Txt) (hs : w.fs.isDir (dir ++ [name]) = false) :
    (∀ m, (some name, m) ∈ fifo (size.map Int.toNat) (ops.map (opCall O)) [] → ∃ b, O.bytes m = .ok b ∧
      (runOps O run S ops w').fs.get? (dir ++ [name]) = some (.file b)) ∧
    (some name ∈ ops.map (fun op => callKey (opCall O op)) →
      some name ∉ (fifo (size.map Int.toNat) (ops.map (opCall O)) []).map (·.1) →
      (runOps O run S ops w').fs.get? (dir ++ [name]) = none) ∧
    (some name ∉ ops.map (fun op => callKey (opCall O op)) →
      (runOps O run S ops w').fs.get? (dir ++ [name]) = w.fs.get? (dir ++ [name])) := by
  obtain ⟨f, hf', hd, f1, f2, f3, -⟩ := newFileCorpus_file h hne
  obtain ⟨-, -, hfs, -⟩ := newFileCorpus_cases h
  have := exact_calls O dir accept size hn w.fs (by rw [← hfs]; exact hd) (ops.map (opCall O)) (by
      intro call hcall
      obtain ⟨op, hop, rfl⟩ := List.mem_map.1 hcall
      exact hg op hop) f w.fs [] [] f1 f2 (by rw [f3]; exact fifoInv_new size)
    ⟨.refl _, by simp, by simp, by simp, fun _ _ => rfl⟩ hf
  rw [(runOps_file O run S c ops hops w' f hf').2, hfs]
  have hmap : [] ++ List.map callKey (List.map (opCall O) ops) = ops.map (fun op => callKey (opCall O op)) := by
    simp [List.map_map, Function.comp_def]
  rw [hmap] at this
  exact ⟨this.held name, this.gone name hs, this.orig name⟩

end

/-- **C49** is false on a directory without messages: nothing is written. -/
theorem C49_claim_false : ¬ C49Claim := by
  intro h
  have := h sampleMail 0 [txt "d"] (fun _ => true) (some 2)
    ⟨[], ⟨[([txt "d"], .dir)]⟩, ()⟩ _ _ [] .dedup (some (txt "b"), [7]) (txt "b") [7] rfl (by simp) (by simp)
    rfl (by decide) rfl (by decide) rfl
  revert this
  decide

/-- It is false with messages too: in a corpus with cache_size 1 the second message
deletes the file of the first. -/
theorem C49_evicted :
    (newFileCorpus 0 [txt "d"] (fun _ => true) (some 1)
      (⟨[], oneFile, ()⟩ : World (Option Txt × List Nat) Unit)).map (fun p =>
        let w := runOps sampleMail (fun _ _ _ => pure ()) (⟨[], []⟩ : Signals Unit)
          [.add .dedup p.1 (some (txt "b"), [7]) none true, .add .dedup p.1 (some (txt "c"), [8]) none true] p.2
        (w.fs.get? [txt "d", txt "b"], w.fs.get? [txt "d", txt "c"], w.fs.get? [txt "d", txt "a"])) =
    .ok (none, some (.file [8]), some (.file [1, 2])) := by decide

theorem oneFile_wf : FSWF oneFile where
  nodup := by simp [oneFile, Dict.Nodup, Dict.keys]
  plain := by decide

/-- **C50** is false: the file is there, and not counted. -/
theorem C50_claim_false : ¬ C50Claim := by
  intro h
  have := h sampleMail 0 [txt "d"] (fun _ => true) (some 2) ⟨[], oneFile, ()⟩ _ _
    [.add .dedup ⟨0, 0⟩ (some (txt "b"), [7]) none true] oneFile_wf rfl (by simp [opCorpus])
  revert this
  decide

/-- The hypotheses of the theorems above hold in a case. -/
example : ∃ c w', newFileCorpus 0 [txt "d"] (fun _ => true) (some 2)
      (⟨[], oneFile, ()⟩ : World (Option Txt × List Nat) Unit) = .ok (c, w') ∧ corpusLen c w' ≠ 0 ∧
      GoodCall sampleMail [txt "d"] (fun _ => true) oneFile (.put (some (txt "b")) (some (txt "b"), [7])) ∧
      FreshPuts (some 2) [.put (some (txt "b")) 1, .pop (some (txt "a")), .put (some (txt "c")) 2] [] := by
  refine ⟨_, _, rfl, by decide, ⟨txt "b", [7], rfl, by decide, rfl, by decide, rfl⟩, ?_⟩
  simp [FreshPuts, fifoCall, lastOf]
  decide

/-- In this directory, with room for two, the second and the third message added are kept,
the first is gone, and a file never mentioned is as it was. -/
example : ∃ c w', newFileCorpus 0 [txt "d"] (fun _ => true) (some 2)
      (⟨[], oneFile, ()⟩ : World (Option Txt × List Nat) Unit) = .ok (c, w') ∧
    ∀ name, name = txt "b" ∨ name = txt "c" ∨ name = txt "a" →
      (runOps sampleMail (fun _ _ _ => pure ()) (⟨[], []⟩ : Signals Unit)
        [.add .dedup c (some (txt "b"), [7]) none true, .add .dedup c (some (txt "c"), [8]) none true,
          .add .dedup c (some (txt "e"), [9]) none true] w').fs.get? [txt "d", name] =
        if name = txt "b" then none else if name = txt "c" then some (.file [8]) else some (.file [1, 2]) := by
  refine ⟨_, _, rfl, ?_⟩
  intro name hname
  obtain ⟨h1, h2, h3⟩ := C49_exact_partial sampleMail (fun _ _ _ => pure ()) (⟨[], []⟩ : Signals Unit)
    (obj := 0) (dir := [txt "d"]) (accept := fun _ => true) (size := some 2) (by simp)
    (w := (⟨[], oneFile, ()⟩ : World (Option Txt × List Nat) Unit)) (h := rfl) (by decide)
    [.add .dedup ⟨0, 0⟩ (some (txt "b"), [7]) none true, .add .dedup ⟨0, 0⟩ (some (txt "c"), [8]) none true,
      .add .dedup ⟨0, 0⟩ (some (txt "e"), [9]) none true] (by simp [opCorpus])
    (by
      intro op hop
      simp only [List.mem_cons, List.not_mem_nil, or_false] at hop
      rcases hop with rfl | rfl | rfl
      · exact ⟨txt "b", [7], rfl, by decide, rfl, by decide, rfl⟩
      · exact ⟨txt "c", [8], rfl, by decide, rfl, by decide, rfl⟩
      · exact ⟨txt "e", [9], rfl, by decide, rfl, by decide, rfl⟩)
    (by simp [FreshPuts, fifoCall, lastOf, opCall]; decide) name (by rcases hname with rfl | rfl | rfl <;> decide)
  rcases hname with rfl | rfl | rfl
  · exact h2 (by decide) (by decide)
  · obtain ⟨b, hb, hr⟩ := h1 (some (txt "c"), [8]) (by decide)
    cases hb
    exact hr
  · exact h3 (by decide)

end Sb.Props
