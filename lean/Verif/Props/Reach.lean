import Verif.Props.Requeue
import Verif.Props.FileMessages

/-
Property C68 for every name: which files a file corpus changes, and what is in them.
-/

set_option linter.unusedSectionVars false

namespace Sb.Props
open Sb.Corpora Sb.Mail Py

variable {ν σ R : Type} [DecidableEq R] (O : MailOps ν)

/-- Going through the components of a path name: an empty one and "." stay, ".." goes to the
parent directory, any other goes to what has that name; each is looked up in a directory. -/
inductive Steps (fs : FS) : Path → List Txt → Path → Prop
  | here (p : Path) : Steps fs p [] p
  | stay {cur p : Path} {c : Txt} {r : List Txt} : fs.isDir cur = true → c = [] ∨ c = txt "." →
      Steps fs cur r p → Steps fs cur (c :: r) p
  | up {cur p : Path} {r : List Txt} : fs.isDir cur = true →
      Steps fs cur.dropLast r p → Steps fs cur (txt ".." :: r) p
  | down {cur p : Path} {c : Txt} {r : List Txt} : fs.isDir cur = true →
      c ≠ [] → c ≠ txt "." → c ≠ txt ".." → Steps fs (cur ++ [c]) r p → Steps fs cur (c :: r) p

/-- The name leads to the path: its components, which are what is between slashes, lead
there from the root if it begins with a slash, else from the directory. -/
def LeadsTo (fs : FS) (dir : Path) (name : Txt) (p : Path) : Prop :=
  ∃ comps : List Txt, comps ≠ [] ∧ (∀ c ∈ comps, 47 ∉ c) ∧ [47].intercalate comps = name ∧
    (([47] <+: name ∧ Steps fs [] comps p) ∨ (¬ [47] <+: name ∧ Steps fs dir comps p))

theorem steps_iff (fs : FS) (l : List Txt) (cur p : Path) : Steps fs cur l p ↔ fs.walk cur l = some p := by
  induction l generalizing cur with
  | nil =>
    refine ⟨fun h => by cases h; rfl, fun h => ?_⟩
    cases h; exact .here _
  | cons c r ih =>
    unfold FS.walk
    constructor
    · intro h
      cases h with
      | stay hd hc h => rw [if_pos hd, if_pos hc]; exact (ih _).1 h
      | up hd h => rw [if_pos hd, if_neg (by decide), if_pos rfl]; exact (ih _).1 h
      | down hd h1 h2 h3 h => rw [if_pos hd, if_neg (by simp [h1, h2]), if_neg h3]; exact (ih _).1 h
    · intro h
      split at h
      · rename_i hd
        split at h
        · rename_i hc; exact .stay hd hc ((ih _).2 h)
        · rename_i hc
          split at h
          · rename_i h3; subst h3; exact .up hd ((ih _).2 h)
          · rename_i h3
            push Not at hc
            exact .down hd hc.1 hc.2 h3 ((ih _).2 h)
      · cases h

theorem splitSlash_ne (t : Txt) : splitSlash t ≠ [] := by
  cases t with
  | nil => simp [splitSlash]
  | cons c r =>
    simp only [splitSlash]
    split
    · simp
    · split <;> simp

theorem intercalate_two (a b : Txt) (r : List Txt) :
    [47].intercalate (a :: b :: r) = a ++ 47 :: [47].intercalate (b :: r) := by
  simp [List.intercalate, List.intersperse]

theorem splitSlash_spec (t : Txt) :
    [47].intercalate (splitSlash t) = t ∧ ∀ c ∈ splitSlash t, 47 ∉ c := by
  induction t with
  | nil => simp [splitSlash, List.intercalate]
  | cons c r ih =>
    simp only [splitSlash]
    cases hs : splitSlash r with
    | nil => exact absurd hs (splitSlash_ne r)
    | cons a as =>
      rw [hs] at ih
      obtain ⟨h1, h2⟩ := ih
      simp only
      split
      · rename_i hc
        subst hc
        refine ⟨?_, ?_⟩
        · rw [intercalate_two, h1]; rfl
        · intro x hx
          rcases List.mem_cons.1 hx with rfl | hx
          · simp
          · exact h2 x hx
      · rename_i hc
        refine ⟨?_, ?_⟩
        · cases as with
          | nil => simpa [List.intercalate] using h1
          | cons b bs => rw [intercalate_two] at h1 ⊢; rw [← h1]; rfl
        · intro x hx
          rcases List.mem_cons.1 hx with rfl | hx
          · simp only [List.mem_cons, not_or]
            exact ⟨fun h => hc h.symm, h2 a (by simp)⟩
          · exact h2 x (List.mem_cons_of_mem _ hx)

theorem splitSlash_append {a : Txt} (h : 47 ∉ a) (r : Txt) : splitSlash (a ++ 47 :: r) = a :: splitSlash r := by
  induction a with
  | nil =>
    simp only [List.nil_append, splitSlash]
    cases hs : splitSlash r with
    | nil => exact absurd hs (splitSlash_ne r)
    | cons b bs => simp
  | cons c t ih =>
    simp only [List.mem_cons, not_or] at h
    simp only [List.cons_append, splitSlash, ih h.2, if_neg (Ne.symm h.1)]

theorem splitSlash_join (l : List Txt) (hl : l ≠ []) (h : ∀ c ∈ l, 47 ∉ c) :
    splitSlash ([47].intercalate l) = l := by
  induction l with
  | nil => exact absurd rfl hl
  | cons a r ih =>
    cases r with
    | nil =>
      have : [47].intercalate [a] = a := by simp [List.intercalate]
      rw [this]
      exact splitSlash_plain (h a (by simp))
    | cons b bs =>
      rw [intercalate_two, splitSlash_append (h a (by simp)), ih (by simp) (fun c hc => h c (List.mem_cons_of_mem _ hc))]

theorem leadsTo_iff {fs : FS} {dir : Path} {name : Txt} {p : Path} :
    LeadsTo fs dir name p ↔ fs.resolve dir name = some p := by
  have hhead : [47] <+: name ↔ name.head? = some 47 := by
    cases name with
    | nil => simp
    | cons c r => simp [List.cons_prefix_cons, eq_comm]
  unfold LeadsTo FS.resolve
  constructor
  · rintro ⟨comps, h1, h2, rfl, h⟩
    rw [splitSlash_join comps h1 h2]
    rcases h with ⟨hh, h⟩ | ⟨hh, h⟩
    · rw [if_pos (hhead.1 hh)]; exact (steps_iff ..).1 h
    · rw [if_neg (fun x => hh (hhead.2 x))]; exact (steps_iff ..).1 h
  · intro h
    refine ⟨splitSlash name, splitSlash_ne name, (splitSlash_spec name).2, (splitSlash_spec name).1, ?_⟩
    by_cases hh : name.head? = some 47
    · rw [if_pos hh] at h; exact .inl ⟨hhead.2 hh, (steps_iff ..).2 h⟩
    · rw [if_neg hh] at h; exact .inr ⟨fun x => hh (hhead.1 x), (steps_iff ..).2 h⟩

instance (fs : FS) (dir : Path) (name : Txt) (p : Path) : Decidable (LeadsTo fs dir name p) :=
  decidable_of_iff _ leadsTo_iff.symm

/-- The call gets as far as the cache: a name that the filter accepts, or any name for
removing. -/
def Effective (accept : Txt → Bool) : CacheCall Key ν → Bool
  | .put (some name) _ => accept name
  | .pop (some _) => true
  | _ => false

/-- What is at the path after some calls: what the last call did that has a name leading
there. A message whose text cannot be made leaves an empty file. -/
def lastAt (fs : FS) (dir : Path) (p : Path) : List (CacheCall Key ν) → Option Node → Option Node
  | [], o => o
  | .put (some name) v :: r, o => lastAt fs dir p r (if LeadsTo fs dir name p then
      (match O.bytes v with
        | .ok b => some (.file b)
        | .error _ => some (.file [])) else o)
  | .pop (some name) :: r, o => lastAt fs dir p r (if LeadsTo fs dir name p then none else o)
  | .put none _ :: r, o => lastAt fs dir p r o
  | .pop none :: r, o => lastAt fs dir p r o

theorem erase_absent {κ : Type} [DecidableEq κ] {q : List κ} {k : κ} (h : k ∉ q) : q.erase k = q :=
  List.erase_of_not_mem h

theorem walk_same {fs fs' : FS} (h : SameDirs fs fs') (cur : Path) (l : List Txt) :
    fs.walk cur l = fs'.walk cur l := by
  induction l generalizing cur with
  | nil => rfl
  | cons c r ih => simp only [FS.walk, h cur, ih]

theorem leadsTo_same {fs fs' : FS} (h : SameDirs fs fs') {dir : Path} {name : Txt} {p : Path} :
    LeadsTo fs dir name p ↔ LeadsTo fs' dir name p := by
  rw [leadsTo_iff, leadsTo_iff]
  unfold FS.resolve
  rw [walk_same h]

theorem removeFile_at (c : FileCache ν) (fs : FS) (name : Txt) {p : Path} (hp : fs.isDir p = false) :
    (c.removeFile fs name).get? p = if LeadsTo fs c.dir name p then none else fs.get? p := by
  by_cases hl : LeadsTo fs c.dir name p
  · rw [if_pos hl]
    unfold FileCache.removeFile
    simp only [leadsTo_iff.1 hl]
    unfold FS.remove
    cases hg : fs.get? p with
    | none => simp [hg]
    | some nd =>
      cases nd with
      | file b => simp
      | dir => rw [(isDir_iff fs p).2 (.inr hg)] at hp; cases hp
  · rw [if_neg hl]
    unfold FileCache.removeFile
    cases hr : fs.resolve c.dir name with
    | none => rfl
    | some p' =>
      have he : p' ≠ p := fun h => hl (leadsTo_iff.2 (h ▸ hr))
      simp only
      unfold FS.remove
      cases hg : fs.get? p' with
      | none => rfl
      | some nd => cases nd <;> simp [Dict.get?_erase, he]

theorem pop_at (c : FileCache ν) (fs : FS) (name : Txt) {p : Path} (hp : fs.isDir p = false) :
    (FileCache.pop (some name) (c, fs)).2.2.get? p = if LeadsTo fs c.dir name p then none else fs.get? p :=
  removeFile_at { c with cache := (c.cache.pop (some name)).2 } fs name hp

theorem write_at {fs fs' : FS} {p' p : Path} {b : List Nat} (h : fs.write p' b = .ok fs') :
    fs'.get? p = if p' = p then some (.file b) else fs.get? p := by
  unfold FS.write at h
  split at h
  · cases h
  · cases h; rw [Dict.get?_set]

theorem writeFile_at (c : FileCache ν) (fs : FS) (name : Txt) (v : ν) {p : Path} (hp : fs.isDir p = false) :
    (FileCache.writeFile O name v (c, fs)).2.2.get? p = if LeadsTo fs c.dir name p then
      (match O.bytes v with
        | .ok b => some (.file b)
        | .error _ => some (.file [])) else fs.get? p := by
  cases hr : fs.resolve c.dir name with
  | none =>
    have hl : ¬ LeadsTo fs c.dir name p := fun h => by
      have h := leadsTo_iff.1 h
      rw [hr] at h; cases h
    rw [if_neg hl]
    simp only [FileCache.writeFile, hr]
  | some p' =>
    have hl : LeadsTo fs c.dir name p ↔ p' = p := by rw [leadsTo_iff, hr]; simp
    simp only [hl]
    unfold FileCache.writeFile
    simp only [hr]
    cases hw : fs.write p' [] with
    | error e =>
      simp only
      rw [if_neg]
      rintro rfl
      unfold FS.write at hw
      rw [hp] at hw
      cases hw
    | ok fs1 =>
      simp only
      cases hb : O.bytes v with
      | error e => exact write_at hw
      | ok b =>
        simp only
        cases hw2 : fs1.write p' b with
        | error e =>
          exfalso
          have hd := write_dirs hw p'
          unfold FS.write at hw hw2
          cases h0 : fs.isDir p' with
          | true => rw [h0] at hw; cases hw
          | false => rw [← hd, h0] at hw2; cases hw2
        | ok fs2 =>
          simp only
          rw [write_at hw2, write_at hw]
          split <;> rfl

/-- A put with an accepted name, whatever becomes of it. -/
theorem put_at (c : FileCache ν) (fs : FS) (name : Txt) (v : ν) (ha : c.accept name = true)
    (hn : none ∉ c.cache.keys) {p : Path} (hp : fs.isDir p = false) :
    (FileCache.put O (some name) v (c, fs)).2.1.cache = c.cache.put (some name) v ∧
    (FileCache.put O (some name) v (c, fs)).2.2.get? p = if LeadsTo fs c.dir name p then
      (match O.bytes v with
        | .ok b => some (.file b)
        | .error _ => some (.file []))
      else (match (c.cache.insert (some name) v).toFlush with
          | some (some k0) => c.removeFile fs k0
          | _ => fs).get? p := by
  have hflush : ∀ k0, (c.cache.insert (some name) v).toFlush = some k0 → k0 ≠ none := by
    intro k0 h0 hh
    have := toFlush_mem h0
    rw [hh] at this
    simp only [List.mem_append, List.mem_singleton, reduceCtorEq, or_false] at this
    exact hn this
  have h1 := superPut_ok (some name) v c fs hflush
  obtain ⟨fs1, hfs1, h1⟩ : ∃ fs1, (match (c.cache.insert (some name) v).toFlush with
      | some (some k0) => c.removeFile fs k0
      | _ => fs) = fs1 ∧ FileCache.superPut (some name) v (c, fs) =
        (.ok (), ({ c with cache := c.cache.put (some name) v }, fs1)) := by
    refine ⟨_, rfl, h1.trans ?_⟩
    cases (c.cache.insert (some name) v).toFlush with
    | none => rfl
    | some k0 => cases k0 <;> rfl
  rw [hfs1]
  have hsame : SameDirs fs fs1 := by
    have := superPut_same (some name) v (c, fs)
    rw [h1] at this
    exact this.2.2.2.2
  have hput : FileCache.put O (some name) v (c, fs) =
      FileCache.writeFile O name v ({ c with cache := c.cache.put (some name) v }, fs1) := by
    unfold FileCache.put
    simp only [ha, if_true]
    rw [M.bind_run_ok h1]
  rw [hput]
  refine ⟨?_, ?_⟩
  · rw [(writeFile_same O name v _).2]
  · rw [writeFile_at O _ fs1 name v (by rw [← hsame]; exact hp)]
    simp only [← leadsTo_same hsame]

theorem lastAt_append (fs : FS) (dir p : Path) (a b : List (CacheCall Key ν)) (o : Option Node) :
    lastAt O fs dir p (a ++ b) o = lastAt O fs dir p b (lastAt O fs dir p a o) := by
  induction a generalizing o with
  | nil => rfl
  | cons x r ih =>
    cases x with
    | put k v => cases k <;> simp only [List.cons_append, lastAt, ih]
    | pop k => cases k <;> simp only [List.cons_append, lastAt, ih]

theorem reach_calls (dir : Path) (accept : Txt → Bool) (size : Option Int) (fs0 : FS) {p : Path}
    (hs : fs0.isDir p = false) (calls : List (CacheCall Key ν)) (f : FileCache ν) (fs : FS) (q : List Key)
    (h1 : f.dir = dir) (h2 : f.accept = accept) (h3 : QueueInv size q f.cache) (h4 : SameDirs fs0 fs)
    (h5 : none ∉ q) :
    (fileCalls O calls (f, fs)).2.get? p =
      lastAt O fs0 dir p (onDisk (size.map Int.toNat) q (calls.filter (Effective accept))) (fs.get? p) := by
  induction calls generalizing f fs q with
  | nil => rfl
  | cons call r ih =>
    have hsame := fileCall_same O (f, fs) call
    have hs2 : fs.isDir p = false := by rw [← h4]; exact hs
    have hkeys := none_not_key O (f, fs) call (by rw [h3.keys]; exact h5)
    cases call with
    | pop k =>
      have hq := h3.call (.pop k)
      cases k with
      | none =>
        have hq' : QueueInv size q (fileCall O (f, fs) (.pop none)).1.cache :=
          ⟨(erase_absent (by rw [h3.keys]; exact h5)).trans h3.keys, h3.size, h3.bound⟩
        exact ih _ _ q (hsame.1.trans h1) (hsame.2.1.trans h2) hq' (h4.trans hsame.2.2.2.2) h5
      | some nm =>
        refine (ih (fileCall O (f, fs) (.pop (some nm))).1 (fileCall O (f, fs) (.pop (some nm))).2 _
          (hsame.1.trans h1) (hsame.2.1.trans h2) hq (h4.trans hsame.2.2.2.2)
          (fun h => h5 (mem_pop h))).trans ?_
        rw [List.filter_cons_of_pos (by rfl)]
        simp only [onDisk, lastAt]
        congr 1
        refine (pop_at f fs nm hs2).trans ?_
        rw [h1]
        simp only [← leadsTo_same h4]
    | put k v =>
      have hrej : (∀ nm, k = some nm → accept nm = false) → fileCall O (f, fs) (.put k v) = (f, fs) ∧
          Effective accept (.put k v : CacheCall Key ν) = false := by
        intro h
        cases k with
        | none => exact ⟨rfl, rfl⟩
        | some nm =>
          have := h nm rfl
          refine ⟨?_, this⟩
          simp [fileCall, FileCache.put, h2, this]
      by_cases hacc : ∀ nm, k = some nm → accept nm = false
      · obtain ⟨r1, r2⟩ := hrej hacc
        rw [List.filter_cons_of_neg (by rw [r2]; decide)]
        simp only [fileCalls, List.foldl_cons, r1]
        exact ih f fs q h1 h2 h3 h4 h5
      · push Not at hacc
        obtain ⟨nm, rfl, ha⟩ := hacc
        have ha : accept nm = true := by simpa using ha
        obtain ⟨c1, c2⟩ := put_at O f fs nm v (by rw [h2]; exact ha) (by rw [h3.keys]; exact h5) hs2
        have hq : QueueInv size (queueCall (size.map Int.toNat) q (.put (some nm) v : CacheCall Key ν))
            (fileCall O (f, fs) (.put (some nm) v)).1.cache := by
          have : (fileCall O (f, fs) (.put (some nm) v)).1.cache = cacheCall f.cache (.put (some nm) v) := c1
          rw [this]
          exact h3.call (.put (some nm) v)
        refine (ih (fileCall O (f, fs) (.put (some nm) v)).1 (fileCall O (f, fs) (.put (some nm) v)).2 _
          (hsame.1.trans h1) (hsame.2.1.trans h2) hq (h4.trans hsame.2.2.2.2)
          (by rw [← hq.keys]; exact hkeys)).trans ?_
        rw [List.filter_cons_of_pos (by exact ha)]
        simp only [onDisk, lastAt_append, lastAt]
        congr 1
        refine c2.trans ?_
        rw [h1, h3.flush (some nm) v]
        simp only [leadsTo_same h4]
        by_cases hl : LeadsTo fs dir nm p
        · rw [if_pos hl, if_pos hl]
        · rw [if_neg hl, if_neg hl]
          cases hlv : leaving (size.map Int.toNat) q (some nm) with
          | none => rfl
          | some k0 =>
            cases k0 with
            | none =>
              have := h3.flush (some nm) v
              rw [hlv] at this
              have := toFlush_mem this
              rw [h3.keys] at this
              simp only [List.mem_append, List.mem_singleton, reduceCtorEq, or_false] at this
              exact absurd this h5
            | some n0 =>
              simp only [Option.toList_some, List.map_cons, List.map_nil, lastAt]
              rw [removeFile_at f fs n0 hs2, h1]
              simp only [leadsTo_same h4]

/-- **C68**, exactly, for every history, names of any kind, any `cache_size`, messages added
again, names refused, messages whose text cannot be made: what is at a path afterwards,
in the directory or not, is what the last call did that got to the cache and has a
name leading to the path, where an eviction counts as a call that removes. -/
theorem C68_exact_partial (run : R → Observer ν σ) (S : Signals R) {obj : Nat} {dir : Path}
    {accept : Txt → Bool} {size : Option Int} {w w' : World ν σ} {c : Corpus}
    (h : newFileCorpus obj dir accept size w = .ok (c, w')) (hne : corpusLen c w' ≠ 0)
    (ops : List (Op ν R)) (hops : ∀ op ∈ ops, opCorpus op = c) {p : Path} (hp : w.fs.isDir p = false) :
    (runOps O run S ops w').fs.get? p =
      lastAt O w.fs dir p (onDisk (size.map Int.toNat) [] ((ops.map (opCall O)).filter (Effective accept)))
        (w.fs.get? p) := by
  obtain ⟨f, hf', -, f1, f2, f3, -⟩ := newFileCorpus_file h hne
  obtain ⟨-, -, hfs, -⟩ := newFileCorpus_cases h
  rw [(runOps_file O run S c ops hops w' f hf').2, hfs]
  exact reach_calls O dir accept size w.fs hp (ops.map (opCall O)) f w.fs [] f1 f2
    (by rw [f3]; exact queueInv_new size) (.refl _) (by simp)

theorem leaving_mem {n : Option Nat} {q : List Key} {k x : Key} (h : leaving n q k = some x) :
    x ∈ q ++ [k] := by
  unfold leaving at h
  cases n with
  | none => cases h
  | some n =>
    simp only at h
    split at h
    · exact List.mem_of_head? h
    · cases h

/-- The keys of the calls that reach the disk are keys that were used. -/
theorem onDisk_keys (n : Option Nat) (calls : List (CacheCall Key ν)) (q : List Key) :
    ∀ call ∈ onDisk n q calls, callKey call ∈ q ∨ callKey call ∈ calls.map callKey := by
  induction calls generalizing q with
  | nil => simp [onDisk]
  | cons a r ih =>
    intro call hc
    cases a with
    | pop k =>
      simp only [onDisk, List.mem_cons] at hc
      rcases hc with rfl | hc
      · exact .inr (by simp [callKey])
      · rcases ih _ call hc with h | h
        · exact .inl (mem_pop h)
        · exact .inr (by simp only [List.map_cons, List.mem_cons]; exact .inr h)
    | put k v =>
      simp only [onDisk, List.mem_append, List.mem_map, Option.mem_toList, List.mem_cons] at hc
      have hk : ∀ x ∈ q ++ [k], x ∈ q ∨ x ∈ List.map callKey (CacheCall.put k v :: r) := by
        intro x hx
        rcases List.mem_append.1 hx with h | h
        · exact .inl h
        · exact .inr (by simp [callKey, List.mem_singleton.1 h])
      rcases hc with ⟨x, hx, rfl⟩ | rfl | hc
      · exact hk x (leaving_mem hx)
      · exact .inr (by simp [callKey])
      · rcases ih _ call hc with h | h
        · refine hk _ ?_
          simp only [queueCall, lastOf] at h
          split at h
          · exact h
          · exact List.mem_of_mem_drop h
        · exact .inr (by simp only [List.map_cons, List.mem_cons]; exact .inr h)

theorem lastAt_untouched (fs : FS) (dir p : Path) (calls : List (CacheCall Key ν)) (o : Option Node)
    (h : ∀ call ∈ calls, ∀ name, callKey call = some name → ¬ LeadsTo fs dir name p) :
    lastAt O fs dir p calls o = o := by
  induction calls generalizing o with
  | nil => rfl
  | cons a r ih =>
    have ha := h a (by simp)
    have hr := fun c hc => h c (List.mem_cons_of_mem _ hc)
    cases a with
    | put k v =>
      cases k with
      | none => exact ih o hr
      | some name => simp only [lastAt, if_neg (ha name rfl)]; exact ih o hr
    | pop k =>
      cases k with
      | none => exact ih o hr
      | some name => simp only [lastAt, if_neg (ha name rfl)]; exact ih o hr

/-- So nothing changes at a path to which no name leads that is used, with whatever
names: no other file is in danger. -/
theorem C68_untouched_partial (run : R → Observer ν σ) (S : Signals R) {obj : Nat} {dir : Path}
    {accept : Txt → Bool} {size : Option Int} {w w' : World ν σ} {c : Corpus}
    (h : newFileCorpus obj dir accept size w = .ok (c, w')) (ops : List (Op ν R))
    (hops : ∀ op ∈ ops, opCorpus op = c) {p : Path} (hp : w.fs.isDir p = false)
    (hk : ∀ op ∈ ops, ∀ name, callKey (opCall O op) = some name → ¬ LeadsTo w.fs dir name p) :
    (runOps O run S ops w').fs.get? p = w.fs.get? p := by
  by_cases hne : corpusLen c w' = 0
  · rw [(C49_empty_directory O run S h hne ops hops).1]
  · rw [C68_exact_partial O run S h hne ops hops hp]
    apply lastAt_untouched
    intro call hc name hname
    rcases onDisk_keys _ _ _ call hc with h | h
    · simp at h
    · obtain ⟨a, ha, hak⟩ := List.mem_map.1 h
      obtain ⟨op, hop, rfl⟩ := List.mem_map.1 (List.mem_filter.1 ha).1
      exact hk op hop name (hak.trans hname)

/-- Where names lead: a proper name into the directory; with ".." out of it; an absolute
name anywhere; through a directory that does not exist nowhere. -/
example : LeadsTo oneFile [txt "d"] (txt "b") [txt "d", txt "b"] ∧
    LeadsTo oneFile [txt "d"] (txt "../x") [txt "x"] ∧
    LeadsTo oneFile [txt "d"] (txt "/etc") [txt "etc"] ∧
    LeadsTo oneFile [txt "d"] (txt "../d/./a") [txt "d", txt "a"] ∧
    oneFile.resolve [txt "d"] (txt "e/x") = none := by decide

/-- A message with such an id overwrites a file beside the directory; its eviction
deletes the file. -/
example :
    (newFileCorpus 0 [txt "d"] (fun _ => true) (some 1)
      (⟨[], ⟨oneFile.entries ++ [([txt "x"], .file [5])]⟩, ()⟩ : World (Option Txt × List Nat) Unit)).map (fun p =>
        let w1 := runOps sampleMail (fun _ _ _ => pure ()) (⟨[], []⟩ : Signals Unit)
          [.add .dedup p.1 (some (txt "../x"), [7]) none true] p.2
        let w2 := runOps sampleMail (fun _ _ _ => pure ()) (⟨[], []⟩ : Signals Unit)
          [.add .dedup p.1 (some (txt "../x"), [7]) none true, .add .dedup p.1 (some (txt "b"), [9]) none true] p.2
        (w1.fs.get? [txt "x"], w2.fs.get? [txt "x"], w2.fs.get? [txt "d", txt "b"])) =
    .ok (some (.file [7]), none, some (.file [9])) := by decide

end Sb.Props
