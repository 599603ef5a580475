import Verif.Props.FileCorpus
import Mathlib.Tactic.Linarith
import Mathlib.Data.Rat.Lemmas
import Mathlib.Algebra.Order.Ring.Rat

/-
Properties C52, C67 and C68 of FileCorpus and ExpiryFileCorpus.
-/

set_option linter.unusedSectionVars false

namespace Sb.Props
open Sb.Corpora Py Mail

section
variable {ν σ R : Type} (O : MailOps ν)

/-! ### C67 -/

theorem pop_absent {κ : Type} [DecidableEq κ] (c : Naive κ ν) (k : κ) (h : k ∉ c.keys) (h' : k ∉ c.data.keys) :
    (c.pop k).2 = c := by
  have h1 : c.keys.erase k = c.keys := List.erase_of_not_mem h
  have h2 : c.data.erase k = c.data := by
    unfold Dict.erase
    have : c.data.entries.filter (fun e => decide (e.1 ≠ k)) = c.data.entries := by
      rw [List.filter_eq_self]
      intro e he
      have : e.1 ≠ k := fun hh => h' (List.mem_map.2 ⟨e, he, hh⟩)
      simpa using this
    rw [this]
  simp only [Naive.pop, h1, h2]

theorem put_sub {κ : Type} [DecidableEq κ] {c : Naive κ ν} (hs : ∀ k ∈ c.data.keys, k ∈ c.keys) (k : κ) (v : ν) :
    ∀ x ∈ (c.put k v).data.keys, x ∈ (c.put k v).keys := by
  unfold Naive.put
  cases (c.insert k v).toFlush with
  | none => exact insert_sub hs k v
  | some k0 => exact pop_sub (insert_sub hs k v) k0

theorem put_data_keys {κ : Type} [DecidableEq κ] (c : Naive κ ν) (k : κ) (v : ν) :
    ∀ x ∈ (c.put k v).data.keys, x = k ∨ x ∈ c.data.keys := by
  intro x hx
  unfold Naive.put at hx
  have hins : x ∈ (c.insert k v).data.keys → x = k ∨ x ∈ c.data.keys := by
    intro h
    simpa only [Naive.insert, Dict.mem_keys_set] using h
  cases hf : (c.insert k v).toFlush with
  | none => rw [hf] at hx; exact hins hx
  | some k0 =>
    rw [hf] at hx
    simp only [Naive.pop, Dict.mem_keys_erase] at hx
    exact hins hx.2

/-- The cache in memory after a call: unchanged, or as the call says. -/
theorem fileCall_cache (s : FileCache ν × FS) (call : CacheCall Key ν) :
    (fileCall O s call).1.cache = s.1.cache ∨ (fileCall O s call).1.cache = cacheCall s.1.cache call := by
  obtain ⟨c, fs⟩ := s
  cases call with
  | pop k => right; cases k <;> rfl
  | put k v =>
    unfold fileCall FileCache.put
    simp only
    cases k with
    | none => exact .inl rfl
    | some k =>
      simp only
      by_cases ha : c.accept k = true
      · right
        rw [if_pos ha, M.bind_run]
        have h1 := superPut_cache (some k) v c fs
        cases hp : FileCache.superPut (some k) v (c, fs) with
        | mk x s' =>
          rw [hp] at h1
          simp only at h1
          cases x with
          | error e => simp only; rw [h1]; rfl
          | ok _ =>
            simp only
            rw [(writeFile_same O k v s').2, h1]; rfl
      · left; rw [if_neg ha]

/-- The messages in memory have been added by this corpus, and their keys are listed. -/
theorem fileCalls_data (calls : List (CacheCall Key ν)) (s : FileCache ν × FS)
    (hs : ∀ k ∈ s.1.cache.data.keys, k ∈ s.1.cache.keys) :
    (∀ k ∈ (fileCalls O calls s).1.cache.data.keys, k ∈ (fileCalls O calls s).1.cache.keys) ∧
    ∀ k ∈ (fileCalls O calls s).1.cache.data.keys, k ∈ s.1.cache.data.keys ∨ ∃ v, .put k v ∈ calls := by
  induction calls generalizing s with
  | nil => exact ⟨hs, fun k hk => .inl hk⟩
  | cons call r ih =>
    have hstep : (∀ k ∈ (fileCall O s call).1.cache.data.keys, k ∈ (fileCall O s call).1.cache.keys) ∧
        ∀ k ∈ (fileCall O s call).1.cache.data.keys, k ∈ s.1.cache.data.keys ∨ ∃ v, .put k v ∈ [call] := by
      rcases fileCall_cache O s call with h | h
      · rw [h]; exact ⟨hs, fun k hk => .inl hk⟩
      · rw [h]
        cases call with
        | put k v =>
          refine ⟨put_sub hs k v, fun x hx => ?_⟩
          rcases put_data_keys _ _ _ x hx with rfl | h'
          · exact .inr ⟨v, by simp⟩
          · exact .inl h'
        | pop k =>
          refine ⟨pop_sub hs k, fun x hx => ?_⟩
          simp only [cacheCall, Naive.pop, Dict.mem_keys_erase] at hx
          exact .inl hx.2
    obtain ⟨h1, h2⟩ := ih (fileCall O s call) hstep.1
    refine ⟨h1, fun k hk => ?_⟩
    rcases h2 k hk with h | ⟨v, hv⟩
    · rcases hstep.2 k h with h | ⟨v, hv⟩
      · exact .inl h
      · exact .inr ⟨v, by simp [List.mem_singleton.1 hv]⟩
    · exact .inr ⟨v, by simp [hv]⟩

/-- The claim: a message taken from a corpus can be removed from it. -/
def C67Claim : Prop :=
  ∀ (O : MailOps (Option Txt × List Nat)) (obj : Nat) (dir : Path) (accept : Txt → Bool) (size : Option Int)
    (w w' : World (Option Txt × List Nat) Unit) (c : Corpus) (ops : List (Op (Option Txt × List Nat) Unit))
    (it : SetIter Unit) (k : Key) (m : Option Txt × List Nat),
    FSWF w.fs → newFileCorpus obj dir accept size w = .ok (c, w') → (∀ op ∈ ops, opCorpus op = c) →
    corpusGetItem O c (runOps O (fun _ _ _ => pure ()) ⟨[], []⟩ ops w') k = .ok m →
    corpusContains c (runOps O (fun _ _ _ => pure ()) ⟨[], []⟩ (ops ++ [.remove it c m true]) w') k = false

/-- **C67** is false.  Exactly: a message that this corpus object has not added itself
comes from its file without an id, and removing it raises TypeError and removes
nothing, in memory or on disk. -/
theorem C67_read_not_removable (run : R → Observer ν σ) (S : Signals R) {obj : Nat} {dir : Path}
    {accept : Txt → Bool} {size : Option Int} {w w' : World ν σ} {c : Corpus}
    (h : newFileCorpus obj dir accept size w = .ok (c, w')) (hne : corpusLen c w' ≠ 0)
    (ops : List (Op ν R)) (hops : ∀ op ∈ ops, opCorpus op = c) (k : Key)
    (hk : ∀ op ∈ ops, ∀ m, opCall O op ≠ .put k m) (m : ν)
    (hm : corpusGetItem O c (runOps O run S ops w') k = .ok m) (it : SetIter R) (e : Bool) :
    O.id m = none ∧
    removeMessage O it run S c m e (runOps O run S ops w') = (.error .typeError, runOps O run S ops w') := by
  obtain ⟨f0, hf0, hd, f1, f2, f3, -⟩ := newFileCorpus_file h hne
  have hf := (runOps_file O run S c ops hops w' f0 hf0).1
  have hempty : ∀ x, x ∉ f0.cache.data.keys := by
    intro x; rw [f3]; simp [Naive.new, Dict.keys, Dict.empty]
  have hdata := fileCalls_data O (ops.map (opCall O)) (f0, w'.fs) (fun x hx => absurd hx (hempty x))
  have hn := none_not_key_calls O (f0, w'.fs) (ops.map (opCall O)) (by rw [f3]; simp [Naive.new])
  generalize fileCalls O (ops.map (opCall O)) (f0, w'.fs) = s at hf hdata hn
  obtain ⟨f, fs⟩ := s
  simp only at hf hdata hn
  generalize runOps O run S ops w' = w1 at hf hm
  have hk' : k ∉ f.cache.data.keys := by
    intro hh
    rcases hdata.2 k hh with h' | ⟨v, hv⟩
    · exact hempty k h'
    · obtain ⟨op, hop, hv⟩ := List.mem_map.1 hv
      exact hk op hop v hv
  have hid : O.id m = none := by
    simp only [corpusGetItem, hf, FileCache.getItem, (Dict.get?_eq_none_iff _ _).2 hk'] at hm
    cases k with
    | none => cases hm
    | some k =>
      simp only at hm
      split at hm
      · split at hm
        · split at hm
          · cases hm; exact O.parse_id _ none
          · cases hm
        · cases hm
      · cases hm
  refine ⟨hid, M.bind_run_error ?_⟩
  have hpop : (f.cache.pop none).2 = f.cache := pop_absent _ _ hn (fun hh => hn (hdata.1 _ hh))
  have hset : w1.heap.set c.cache (.file f) = w1.heap := by
    obtain ⟨hlt, he⟩ := List.getElem?_eq_some_iff.1 hf
    rw [← he]; exact List.set_getElem_self hlt
  rw [hid]
  simp [cachePop, hf, FileCache.pop, hpop, hset]

theorem mem_readFiles (f : FileCache ν) (fs : FS) (m : ν) (ks : List Txt)
    (h : m ∈ (f.readFiles O fs ks).1) : ∃ k ∈ ks, f.readFile O fs k = .ok m := by
  induction ks with
  | nil => simp [FileCache.readFiles] at h
  | cons k ks ih =>
    simp only [FileCache.readFiles] at h
    cases hr : f.readFile O fs k with
    | error e => simp [hr] at h
    | ok v =>
      simp only [hr, List.mem_cons] at h
      rcases h with rfl | h
      · exact ⟨k, by simp, hr⟩
      · obtain ⟨k', hk', h'⟩ := ih h
        exact ⟨k', by simp [hk'], h'⟩

/-- **C67**, true part: the messages of `values()` have the names of their files as ids,
and removing one removes its file. -/
theorem C67_values_removable_partial (run : R → Observer ν σ) (S : Signals R) (w : World ν σ) (c : Corpus)
    (f : FileCache ν) (hw : FSWF w.fs) (h : w.heap[c.cache]? = some (.file f)) (hd : w.fs.isDir f.dir = true)
    (m : ν) (hm : m ∈ (corpusValues O c w).1) (it : SetIter R) (e : Bool) :
    ∃ name b, O.id m = some name ∧ w.fs.get? (f.dir ++ [name]) = some (.file b) ∧
      m = O.parse b (some name) ∧
      ∀ p, (removeMessage O it run S c m e w).2.fs.get? p =
        if p = f.dir ++ [name] then none else w.fs.get? p := by
  simp only [corpusValues, h, FileCache.values] at hm
  obtain ⟨name, hn, hm⟩ := mem_readFiles O f w.fs m _ hm
  have hM := (mem_fileKeys f w.fs hw hd name).1 hn
  obtain ⟨⟨b, hb⟩, -⟩ := hM
  have hp : PlainName name := hw.plain _ ((Dict.mem_keys_iff _ _).2 ⟨_, hb⟩) name (by simp)
  simp only [FileCache.readFile, resolve_plain hp hd, hb, MailOps.readAs] at hm
  split at hm
  · cases hm
  cases hm
  have hid := O.parse_id b (some name)
  refine ⟨name, b, hid, hb, rfl, ?_⟩
  intro p
  have h1 := (runOp_caches O run S (.remove it c (O.parse b (some name)) e) w).2
  change ((runOp O run S (.remove it c (O.parse b (some name)) e) w).2.fs.get? p) = _
  rw [h1]
  have h2 := (cacheStep_file O (.remove it c (O.parse b (some name)) e : Op ν R) w f h).2
  rw [h2]
  simp only [opCall, hid, fileCall]
  by_cases hdp : p = f.dir ++ [name]
  · have hs : w.fs.isDir p = false := by
      rw [← Bool.not_eq_true, isDir_iff, hdp, hb]
      simp
    rw [pop_file f w.fs hp hd hs]
  · rw [if_neg hdp]
    exact removeFile_other { f with cache := (f.cache.pop (some name)).2 } hp hd hdp

theorem C67_claim_false : ¬ C67Claim := by
  intro h
  have := h sampleMail 0 [txt "d"] (fun _ => true) (some 2) ⟨[], oneFile, ()⟩ _ _ [] .dedup (some (txt "a"))
    (none, [1, 2]) oneFile_wf rfl (by simp) rfl
  revert this
  decide

example : corpusValues sampleMail ⟨0, 0⟩
    (⟨[.file ⟨.new none, [txt "d"], fun _ => true, 1⟩], oneFile, ()⟩ : World (Option Txt × List Nat) Unit) =
    ([(some (txt "a"), [1, 2])], none) := by decide

/-! ### C68 -/

/-- The path is that of an entry of the directory. -/
def InDirectory (dir p : Path) : Prop := ∃ name, p = dir ++ [name]

/-- The claim: a file corpus changes only entries of its directory. -/
def C68Claim : Prop :=
  ∀ (O : MailOps (Option Txt × List Nat)) (obj : Nat) (dir : Path) (accept : Txt → Bool) (size : Option Int)
    (w w' : World (Option Txt × List Nat) Unit) (c : Corpus) (ops : List (Op (Option Txt × List Nat) Unit))
    (p : Path), FSWF w.fs → newFileCorpus obj dir accept size w = .ok (c, w') → (∀ op ∈ ops, opCorpus op = c) →
    ¬ InDirectory dir p →
    (runOps O (fun _ _ _ => pure ()) ⟨[], []⟩ ops w').fs.get? p = w.fs.get? p

/-- The keys of the cache and of the call are proper names. -/
def PlainKey (k : Key) : Prop := ∀ name, k = some name → PlainName name

theorem writeFile_other (f : FileCache ν) {fs : FS} {k : Txt} (v : ν) (hk : PlainName k) (hd : fs.isDir f.dir = true)
    {p : Path} (hp : p ≠ f.dir ++ [k]) : (FileCache.writeFile O k v (f, fs)).2.2.get? p = fs.get? p := by
  unfold FileCache.writeFile
  simp only [resolve_plain hk hd]
  have hw : ∀ (g g' : FS) (b : List Nat), g.write (f.dir ++ [k]) b = .ok g' → g'.get? p = g.get? p := by
    intro g g' b h
    unfold FS.write at h
    split at h
    · cases h
    · cases h; rw [Dict.get?_set, if_neg (Ne.symm hp)]
  cases h1 : fs.write (f.dir ++ [k]) [] with
  | error e => rfl
  | ok fs1 =>
    simp only
    cases O.bytes v with
    | error e => exact hw _ _ _ h1
    | ok b =>
      simp only
      cases h2 : fs1.write (f.dir ++ [k]) b with
      | error e => exact hw _ _ _ h1
      | ok fs2 => exact (hw _ _ _ h2).trans (hw _ _ _ h1)

theorem pop_outside (f : FileCache ν) (fs : FS) (hd : fs.isDir f.dir = true) (k : Key) (hk : PlainKey k)
    {p : Path} (hp : ¬ InDirectory f.dir p) : (FileCache.pop k (f, fs)).2.2.get? p = fs.get? p := by
  cases k with
  | none => rfl
  | some k =>
    exact removeFile_other { f with cache := (f.cache.pop (some k)).2 } (hk k rfl) hd (fun h => hp ⟨k, h⟩)

theorem fileCall_outside (f : FileCache ν) (fs : FS) (hd : fs.isDir f.dir = true) (call : CacheCall Key ν)
    (hk : PlainKey (callKey call)) (hks : ∀ k ∈ f.cache.keys, PlainKey k) {p : Path} (hp : ¬ InDirectory f.dir p) :
    (fileCall O (f, fs) call).2.get? p = fs.get? p := by
  cases call with
  | pop k => exact pop_outside f fs hd k hk hp
  | put k v =>
    unfold fileCall FileCache.put
    simp only
    cases k with
    | none => rfl
    | some k =>
      simp only
      by_cases ha : f.accept k = true
      · rw [if_pos ha, M.bind_run]
        have h1 : (FileCache.superPut (some k) v (f, fs)).2.2.get? p = fs.get? p := by
          unfold FileCache.superPut
          simp only
          cases hf : (f.cache.insert (some k) v).toFlush with
          | none => rfl
          | some k0 =>
            have hk0 : PlainKey k0 := by
              have := toFlush_mem hf
              rcases List.mem_append.1 this with h | h
              · exact hks k0 h
              · rw [List.mem_singleton.1 h]; exact hk
            have := pop_outside { f with cache := f.cache.insert (some k) v } fs hd k0 hk0 hp
            simp only
            cases hpp : FileCache.pop k0 ({ f with cache := f.cache.insert (some k) v }, fs) with
            | mk x s' =>
              rw [hpp] at this
              cases x <;> exact this
        have hsame := superPut_same (some k) v (f, fs)
        cases hpp : FileCache.superPut (some k) v (f, fs) with
        | mk x s' =>
          rw [hpp] at h1 hsame
          obtain ⟨g, fs'⟩ := s'
          cases x with
          | error e => exact h1
          | ok _ =>
            refine (writeFile_other O g v (hk k rfl) ?_ ?_).trans h1
            · rw [hsame.1, ← hsame.2.2.2.2]; exact hd
            · rw [hsame.1]; exact fun h => hp ⟨k, h⟩
      · rw [if_neg ha]

theorem fileCall_keys (s : FileCache ν × FS) (call : CacheCall Key ν) :
    ∀ k ∈ (fileCall O s call).1.cache.keys, k = callKey call ∨ k ∈ s.1.cache.keys := by
  intro k hk
  rcases fileCall_cache O s call with h | h
  · rw [h] at hk; exact .inr hk
  · rw [h] at hk
    cases call with
    | pop k' => exact .inr (pop_keys_sub _ _ _ hk)
    | put k' v =>
      have hins : ∀ x ∈ (s.1.cache.insert k' v).keys, x = k' ∨ x ∈ s.1.cache.keys := by
        intro x hx
        simp only [Naive.insert, List.mem_append, List.mem_singleton] at hx
        exact hx.symm
      simp only [cacheCall, Naive.put] at hk
      cases hf : (s.1.cache.insert k' v).toFlush with
      | none => rw [hf] at hk; exact hins k hk
      | some k0 => rw [hf] at hk; exact hins k (pop_keys_sub _ _ _ hk)

theorem fileCalls_outside (calls : List (CacheCall Key ν)) (s : FileCache ν × FS) (hd : s.2.isDir s.1.dir = true)
    (hk : ∀ call ∈ calls, PlainKey (callKey call)) (hks : ∀ k ∈ s.1.cache.keys, PlainKey k) {p : Path}
    (hp : ¬ InDirectory s.1.dir p) : (fileCalls O calls s).2.get? p = s.2.get? p := by
  induction calls generalizing s with
  | nil => rfl
  | cons call r ih =>
    have hsame := fileCall_same O s call
    refine (ih (fileCall O s call) ?_ (fun c hc => hk c (by simp [hc])) ?_ ?_).trans ?_
    · rw [hsame.1, ← hsame.2.2.2.2]; exact hd
    · intro k hk'
      rcases fileCall_keys O s call k hk' with rfl | h
      · exact hk call (by simp)
      · exact hks k h
    · rw [hsame.1]; exact hp
    · exact fileCall_outside O s.1 s.2 hd call (hk call (by simp)) hks hp

/-- **C68**, true part: with proper names (no slash; not "." or "..") a file corpus
changes nothing but entries of its directory. -/
theorem C68_confined_partial (run : R → Observer ν σ) (S : Signals R) {obj : Nat} {dir : Path}
    {accept : Txt → Bool} {size : Option Int} {w w' : World ν σ} {c : Corpus}
    (h : newFileCorpus obj dir accept size w = .ok (c, w')) (ops : List (Op ν R))
    (hops : ∀ op ∈ ops, opCorpus op = c)
    (hk : ∀ op ∈ ops, ∀ name, callKey (opCall O op) = some name → PlainName name)
    {p : Path} (hp : ¬ InDirectory dir p) : (runOps O run S ops w').fs.get? p = w.fs.get? p := by
  obtain ⟨-, -, hfs, -⟩ := newFileCorpus_cases h
  by_cases hne : corpusLen c w' = 0
  · rw [(C49_empty_directory O run S h hne ops hops).1]
  · obtain ⟨f, hf, hd, f1, f2, f3, -⟩ := newFileCorpus_file h hne
    rw [(runOps_file O run S c ops hops w' f hf).2, ← hfs]
    refine fileCalls_outside O _ (f, w'.fs) (by rw [f1]; exact hd) ?_ ?_ (by rw [f1]; exact hp)
    · intro call hcall
      obtain ⟨op, hop, rfl⟩ := List.mem_map.1 hcall
      exact hk op hop
    · intro k hk'; rw [f3] at hk'; simp [Naive.new] at hk'

/-- Whatever the names, no directory is made or removed. -/
theorem C68_directories (run : R → Observer ν σ) (S : Signals R) {obj : Nat} {dir : Path}
    {accept : Txt → Bool} {size : Option Int} {w w' : World ν σ} {c : Corpus}
    (h : newFileCorpus obj dir accept size w = .ok (c, w')) (ops : List (Op ν R))
    (hops : ∀ op ∈ ops, opCorpus op = c) (p : Path) :
    (runOps O run S ops w').fs.isDir p = w.fs.isDir p := by
  obtain ⟨-, -, hfs, -⟩ := newFileCorpus_cases h
  by_cases hne : corpusLen c w' = 0
  · rw [(C49_empty_directory O run S h hne ops hops).1]
  · obtain ⟨f, hf, -⟩ := newFileCorpus_file h hne
    rw [(runOps_file O run S c ops hops w' f hf).2, ← hfs]
    exact ((fileCalls_same O (f, w'.fs) (ops.map (opCall O))).2.2.2.2 p).symm

/-- **C68** is false for ids with slashes: a message with the id "../x" is written
beside the directory. -/
theorem C68_claim_false : ¬ C68Claim := by
  intro h
  have := h sampleMail 0 [txt "d"] (fun _ => true) (some 2) ⟨[], oneFile, ()⟩ _ _
    [.add .dedup ⟨0, 0⟩ (some (txt "../x"), [7]) none true] [txt "x"] oneFile_wf rfl (by simp [opCorpus])
    (by rintro ⟨n, hn⟩; simp at hn)
  revert this
  decide

/-! ### C52 -/

variable (stamp : ν → Option ℚ)

/-- The claim: what is removed is what is older than the age. -/
def C52Claim : Prop :=
  ∀ (O : MailOps (Option Txt × List Nat)) (stamp : Option Txt × List Nat → Option ℚ) (now : ℚ) (x : Expiry)
    (w : World (Option Txt × List Nat) Unit), x.expiryDue ≤ now →
    (removeExpired O stamp now now (fun _ => now) x w).1 = .ok ()

/-- **C52**, true part: before the time set, nothing happens, not even to the object. -/
theorem C52_not_due_partial (now0 now1 : ℚ) (now : Key → ℚ) (x : Expiry) (w : World ν σ)
    (h : now0 < x.expiryDue) : removeExpired O stamp now0 now1 now x w = (.ok (), x) := by
  simp [removeExpired, h]

theorem expireLoop_noStamp (now : Key → ℚ) (c : Corpus) (age : ℚ) (w : World ν σ) (k : Key) (r : List Key)
    (due : ℚ) (m : ν) (hm : corpusGetItem O c w k = .ok m) (hs : stamp m = none) :
    expireLoop O stamp now c age w (k :: r) due = (.error .attributeError, due) := by
  simp [expireLoop, hm, hs]

/-- When it is due, and the class of the messages has no creation time (class Message
has none): AttributeError, if the corpus has a message at all; and the next check is
put off by the expiry age. -/
theorem C52_no_timestamp (now0 now1 : ℚ) (now : Key → ℚ) (x : Expiry) (w : World ν σ)
    (h : x.expiryDue ≤ now0) (hs : ∀ m, stamp m = none)
    (hg : ∀ k ∈ corpusKeys x.corpus w, ∃ m, corpusGetItem O x.corpus w k = .ok m) :
    removeExpired O stamp now0 now1 now x w =
      (if corpusKeys x.corpus w = [] then .ok () else .error .attributeError,
        { x with expiryDue := now1 + x.expireBefore }) := by
  simp only [removeExpired, if_neg (not_lt.2 h)]
  cases hk : corpusKeys x.corpus w with
  | nil => rfl
  | cons k r =>
    obtain ⟨m, hm⟩ := hg k (by rw [hk]; simp)
    rw [expireLoop_noStamp O stamp _ _ _ _ _ _ _ m hm (hs m)]
    simp

/-- The smallest of the times at which the messages expire, and `due`. -/
def earliest (due : ℚ) : List ℚ → ℚ
  | [] => due
  | t :: r => earliest (if t < due then t else due) r

theorem earliest_spec (due : ℚ) (l : List ℚ) :
    (earliest due l = due ∨ earliest due l ∈ l) ∧ earliest due l ≤ due ∧ ∀ t ∈ l, earliest due l ≤ t := by
  induction l generalizing due with
  | nil => simp [earliest]
  | cons t r ih =>
    obtain ⟨h1, h2, h3⟩ := ih (if t < due then t else due)
    simp only [earliest]
    by_cases ht : t < due
    · rw [if_pos ht] at h1 h2 h3 ⊢
      refine ⟨?_, by linarith, ?_⟩
      · rcases h1 with h | h
        · right; rw [h]; simp
        · right; simp [h]
      · intro t' ht'
        rcases List.mem_cons.1 ht' with rfl | h
        · exact h2
        · exact h3 t' h
    · rw [if_neg ht] at h1 h2 h3 ⊢
      refine ⟨?_, h2, ?_⟩
      · rcases h1 with h | h
        · exact .inl h
        · right; simp [h]
      · intro t' ht'
        rcases List.mem_cons.1 ht' with rfl | h
        · linarith
        · exact h3 t' h

theorem expireLoop_stamped (now : Key → ℚ) (c : Corpus) (age : ℚ) (w : World ν σ) (time : Key → ℚ) (keys : List Key)
    (hg : ∀ k ∈ keys, ∃ m, corpusGetItem O c w k = .ok m ∧ stamp m = some (time k)) (due : ℚ) :
    ((∀ k ∈ keys, now k ≤ time k + age) →
      expireLoop O stamp now c age w keys due = (.ok (), earliest due (keys.map (fun k => time k + age)))) ∧
    ((∃ k ∈ keys, time k + age < now k) → (expireLoop O stamp now c age w keys due).1 = .error .typeError) := by
  induction keys generalizing due with
  | nil => exact ⟨fun _ => rfl, fun ⟨k, hk, _⟩ => by simp at hk⟩
  | cons k r ih =>
    obtain ⟨m, hm, hs⟩ := hg k (by simp)
    have hgr : ∀ k ∈ r, ∃ m, corpusGetItem O c w k = .ok m ∧ stamp m = some (time k) :=
      fun k' hk' => hg k' (by simp [hk'])
    obtain ⟨i1, i2⟩ := ih hgr (if time k + age < due then time k + age else due)
    simp only [expireLoop, hm, hs]
    by_cases hlt : time k + age < now k
    · rw [if_pos hlt]
      refine ⟨fun h => absurd (h k (by simp)) (not_le.2 hlt), fun _ => rfl⟩
    · rw [if_neg hlt]
      refine ⟨fun h => ?_, fun ⟨k', hk', hl⟩ => ?_⟩
      · rw [i1 (fun k' hk' => h k' (by simp [hk']))]
        rfl
      · rcases List.mem_cons.1 hk' with rfl | h
        · exact absurd hl hlt
        · exact i2 ⟨k', h, hl⟩

/-- When it is due, and the messages have creation times: if none is older than the
age, the next check is due at the first expiry (or after the age); otherwise
TypeError.  Nothing is ever removed: the function has no effect on the corpus. -/
theorem C52_timestamps (now0 now1 : ℚ) (now : Key → ℚ) (x : Expiry) (w : World ν σ) (time : Key → ℚ)
    (h : x.expiryDue ≤ now0)
    (hg : ∀ k ∈ corpusKeys x.corpus w, ∃ m, corpusGetItem O x.corpus w k = .ok m ∧ stamp m = some (time k)) :
    ((∀ k ∈ corpusKeys x.corpus w, now k ≤ time k + x.expireBefore) →
      removeExpired O stamp now0 now1 now x w = (.ok (), ⟨x.corpus, x.expireBefore,
        earliest (now1 + x.expireBefore) ((corpusKeys x.corpus w).map (fun k => time k + x.expireBefore))⟩)) ∧
    ((∃ k ∈ corpusKeys x.corpus w, time k + x.expireBefore < now k) →
      (removeExpired O stamp now0 now1 now x w).1 = .error .typeError) := by
  obtain ⟨h1, h2⟩ := expireLoop_stamped O stamp now x.corpus x.expireBefore w time (corpusKeys x.corpus w) hg
    (now1 + x.expireBefore)
  simp only [removeExpired, if_neg (not_lt.2 h)]
  refine ⟨fun hh => ?_, fun hh => ?_⟩
  · rw [h1 hh]
  · have := h2 hh
    generalize expireLoop O stamp now x.corpus x.expireBefore w (corpusKeys x.corpus w)
      (now1 + x.expireBefore) = y at this
    obtain ⟨a, b⟩ := y
    exact this

/-- **C52** is false: with one message in the corpus, it raises. -/
theorem C52_claim_false : ¬ C52Claim := by
  intro h
  have := h sampleMail (fun _ => none) 10 ⟨⟨0, 0⟩, 5, 3⟩
    ⟨[.naive ((Naive.new none).put (some (txt "a")) (none, []))], Dict.empty, ()⟩ (by norm_num)
  rw [C52_no_timestamp sampleMail _ _ _ _ _ _ (by norm_num) (fun _ => rfl) ?_] at this
  · revert this
    decide
  · intro k hk
    have : k = some (txt "a") := by
      revert hk
      rw [show corpusKeys (⟨0, 0⟩ : Corpus) (⟨[.naive ((Naive.new none).put (some (txt "a")) (none, []))],
        Dict.empty, ()⟩ : World (Option Txt × List Nat) Unit) = [some (txt "a")] from rfl]
      exact List.mem_singleton.1
    rw [this]
    exact ⟨_, rfl⟩

/-- A corpus with one message, made at 4. -/
def stampedWorld : World (Option Txt × List Nat) Unit :=
  ⟨[.naive ((Naive.new none).put (some (txt "a")) (none, []))], Dict.empty, ()⟩

theorem stamped_messages : ∀ k ∈ corpusKeys ⟨0, 0⟩ stampedWorld,
    ∃ m, corpusGetItem sampleMail ⟨0, 0⟩ stampedWorld k = .ok m ∧ (some 4 : Option ℚ) = some ((fun _ => 4) k) := by
  intro k hk
  have : k = some (txt "a") := by
    revert hk
    rw [show corpusKeys (⟨0, 0⟩ : Corpus) stampedWorld = [some (txt "a")] from rfl]
    exact List.mem_singleton.1
  rw [this]
  exact ⟨_, rfl, rfl⟩

/-- At 8 a message made at 4 is not 5 old yet: the next check is due at 9, not at 13. -/
example : removeExpired sampleMail (fun _ => some 4) 8 8 (fun _ => 8) ⟨⟨0, 0⟩, 5, 3⟩ stampedWorld =
    (.ok (), ⟨⟨0, 0⟩, 5, 9⟩) := by
  rw [(C52_timestamps sampleMail (fun _ => some 4) 8 8 (fun _ => 8) ⟨⟨0, 0⟩, 5, 3⟩ stampedWorld (fun _ => 4)
    (by norm_num) stamped_messages).1 (fun k _ => by norm_num)]
  rw [show corpusKeys (⟨0, 0⟩ : Corpus) stampedWorld = [some (txt "a")] from rfl]
  norm_num [earliest]

/-- At 10 it is: TypeError. -/
example : (removeExpired sampleMail (fun _ => some 4) 10 10 (fun _ => 10) ⟨⟨0, 0⟩, 5, 3⟩ stampedWorld).1 =
    .error .typeError :=
  (C52_timestamps sampleMail (fun _ => some 4) 10 10 (fun _ => 10) ⟨⟨0, 0⟩, 5, 3⟩ stampedWorld (fun _ => 4)
    (by norm_num) stamped_messages).2 ⟨some (txt "a"), by decide, by norm_num⟩

/-- The first check is due at once. -/
theorem C52_construction {obj : Nat} {age : ℚ} {dir : Path} {accept : Txt → Bool} {size : Option Int}
    {now : ℚ} {w w' : World ν σ} {x : Expiry} (h : newExpiry obj age dir accept size now w = .ok (x, w')) :
    newFileCorpus obj dir accept size w = .ok (x.corpus, w') ∧ x.expireBefore = age ∧ x.expiryDue = now := by
  unfold newExpiry at h
  cases hc : newFileCorpus obj dir accept size w with
  | error e => rw [hc] at h; cases h
  | ok r =>
    obtain ⟨c, w1⟩ := r
    rw [hc] at h
    simp only [Except.ok.injEq, Prod.mk.injEq] at h
    obtain ⟨rfl, rfl⟩ := h
    exact ⟨rfl, rfl, rfl⟩

/-! ### C69 for corpora of files -/

/-- The ids that no message can have. -/
def refusedNames : List Key := [some (txt "Statistics start date"), some (txt "Persistent statistics")]

theorem readFiles_names (f : FileCache ν) (fs : FS) (hw : FSWF fs) (hd : fs.isDir f.dir = true)
    (l : List Txt) (hl : ∀ n ∈ l, n ∈ f.keys fs) :
    (f.readFiles O fs l).1.map O.id = (l.map some).takeWhile (fun k => !refusedNames.contains k) ∧
    (f.readFiles O fs l).2 = if ∃ k ∈ l.map some, k ∈ refusedNames then some .valueError else none := by
  induction l with
  | nil => simp [FileCache.readFiles]
  | cons n l ih =>
    obtain ⟨⟨b, hb⟩, ha⟩ := (mem_fileKeys f fs hw hd n).1 (hl n (by simp))
    have hp : PlainName n := hw.plain _ ((Dict.mem_keys_iff _ _).2 ⟨_, hb⟩) n (by simp)
    obtain ⟨ih1, ih2⟩ := ih (fun m hm => hl m (by simp [hm]))
    by_cases hr : n = statsStartKey ∨ n = statsStorageKey
    · have hm : some n ∈ refusedNames := by
        rcases hr with rfl | rfl <;> simp [refusedNames, statsStartKey, statsStorageKey]
      simp [FileCache.readFiles, FileCache.readFile, resolve_plain hp hd, hb, MailOps.readAs, hr, hm]
    · have hm : some n ∉ refusedNames := by
        simpa [refusedNames, statsStartKey, statsStorageKey] using hr
      simp only [FileCache.readFiles, FileCache.readFile, resolve_plain hp hd, hb, MailOps.readAs, if_neg hr]
      constructor
      · simp [ih1, hm, O.parse_id]
      · rw [ih2]
        simp [hm]

/-- **C69** for a corpus of files, in every state: the keys are the names of the files that
match the filter, each once; each of them can be looked up; `in` agrees with them, `get`
with `[]`; and values() has the messages of these files in this order, with their names as
ids, up to a file with one of the two names that `set_id` refuses, where it ends with
ValueError.  (For `len` see C50, for `items` C69_claim_false.) -/
theorem C69_file_partial (w : World ν σ) (c : Corpus) (f : FileCache ν) (hw : FSWF w.fs)
    (h : w.heap[c.cache]? = some (.file f)) (hd : w.fs.isDir f.dir = true) :
    (corpusKeys c w).Nodup ∧
    (∀ k, k ∈ corpusKeys c w ↔ ∃ name b, k = some name ∧ w.fs.get? (f.dir ++ [name]) = some (.file b) ∧
      f.accept name = true) ∧
    (∀ k, corpusContains c w k = true ↔ k ∈ corpusKeys c w) ∧
    (∀ k ∈ corpusKeys c w, ∃ m, corpusGetItem O c w k = .ok m) ∧
    (∀ k m, corpusGet O c w k = .ok (some m) ↔ corpusGetItem O c w k = .ok m) ∧
    (∀ k, corpusGet O c w k = .ok none ↔ corpusGetItem O c w k = .error .keyError) ∧
    (corpusValues O c w).1.map O.id = (corpusKeys c w).takeWhile (fun k => !refusedNames.contains k) ∧
    (corpusValues O c w).2 =
      if ∃ k ∈ corpusKeys c w, k ∈ refusedNames then some .valueError else none := by
  have hkeys : corpusKeys c w = (f.keys w.fs).map some := by simp [corpusKeys, h]
  have hmem : ∀ k, k ∈ corpusKeys c w ↔ ∃ name b, k = some name ∧
      w.fs.get? (f.dir ++ [name]) = some (.file b) ∧ f.accept name = true := by
    intro k
    rw [hkeys, List.mem_map]
    constructor
    · rintro ⟨name, hn, rfl⟩
      obtain ⟨⟨b, hb⟩, ha⟩ := (mem_fileKeys f w.fs hw hd name).1 hn
      exact ⟨name, b, rfl, hb, ha⟩
    · rintro ⟨name, b, rfl, hb, ha⟩
      exact ⟨name, (mem_fileKeys f w.fs hw hd name).2 ⟨⟨b, hb⟩, ha⟩, rfl⟩
  refine ⟨?_, hmem, ?_, ?_, ?_, ?_, ?_, ?_⟩
  · rw [hkeys]
    exact ((listdir_nodup w.fs f.dir hw.nodup).filter _).map (Option.some_injective _)
  · intro k; simp [corpusContains]
  · intro k hk
    obtain ⟨name, b, rfl, hb, ha⟩ := (hmem k).1 hk
    have hp : PlainName name := hw.plain _ ((Dict.mem_keys_iff _ _).2 ⟨_, hb⟩) name (by simp)
    have hin : name ∈ f.keys w.fs := (mem_fileKeys f w.fs hw hd name).2 ⟨⟨b, hb⟩, ha⟩
    rw [FileCache.keys, List.mem_filter] at hin
    simp only [corpusGetItem, h, FileCache.getItem]
    cases f.cache.data.get? (some name) with
    | some v => exact ⟨v, rfl⟩
    | none =>
      have hc : ((w.fs.listdir f.dir).contains name && f.isMessage w.fs name) = true := by
        simp [hin.1, hin.2]
      simp only [hc, if_true, resolve_plain hp hd, hb]
      exact ⟨_, rfl⟩
  · intro k m
    simp only [corpusGet, corpusGetItem, h, FileCache.get]
    cases hg : f.getItem O w.fs k with
    | ok v => simp
    | error e => cases e <;> simp
  · intro k
    simp only [corpusGet, corpusGetItem, h, FileCache.get]
    cases hg : f.getItem O w.fs k with
    | ok v => simp
    | error e => cases e <;> simp
  · have := (readFiles_names O f w.fs hw hd _ (fun _ h => h)).1
    rw [hkeys]
    simp only [corpusValues, h, FileCache.values, this]
  · have := (readFiles_names O f w.fs hw hd _ (fun _ h => h)).2
    rw [hkeys]
    simp only [corpusValues, h, FileCache.values, this]

/-- A file can have such a name: then values() raises although every key can be looked up. -/
example :
    let fs : FS := ⟨[([txt "d"], .dir), ([txt "d", txt "a"], .file [1]),
      ([txt "d", txt "Persistent statistics"], .file [2])]⟩
    let w : World (Option Txt × List Nat) Unit := ⟨[.file ⟨.new none, [txt "d"], fun _ => true, 2⟩], fs, ()⟩
    corpusValues sampleMail ⟨0, 0⟩ w = ([(some (txt "a"), [1])], some .valueError) ∧
    corpusGetItem sampleMail ⟨0, 0⟩ w (some (txt "Persistent statistics")) = .ok (none, [2]) := by
  decide

end
end Sb.Props
