import Verif.Props.FileCorpus

/-
Properties C46 and C49 for every sequence of calls, with keys put again while they are
in the cache.
-/

set_option linter.unusedSectionVars false

namespace Sb.Props
open Sb.Corpora Sb.Mail Py

/-! ### The queue -/

section
variable {κ ν : Type} [DecidableEq κ]

/-- The key that has to leave a queue of size `n` when `k` enters at the end: the oldest,
if there are too many then; it can be `k`. -/
def leaving (n : Option Nat) (q : List κ) (k : κ) : Option κ :=
  match n with
  | none => none
  | some n => if n < (q ++ [k]).length then (q ++ [k]).head? else none

/-- The queue after a call: a put enters its key at the end, also when it is there
already; a pop takes away the oldest occurrence. -/
def queueCall (n : Option Nat) (q : List κ) : CacheCall κ ν → List κ
  | .put k _ => lastOf n (q ++ [k])
  | .pop k => q.erase k

/-- The calls with the evictions written out: after a put, a pop of the key that leaves. -/
def withEvictions (n : Option Nat) : List κ → List (CacheCall κ ν) → List (CacheCall κ ν)
  | _, [] => []
  | q, .put k v :: r =>
    .put k v :: ((leaving n q k).toList.map .pop ++ withEvictions n (queueCall n q (.put k v : CacheCall κ ν)) r)
  | q, .pop k :: r => .pop k :: withEvictions n (queueCall n q (.pop k : CacheCall κ ν)) r

/-- What the queue tells of a cache. -/
structure QueueInv (n : Option Int) (q : List κ) (c : Naive κ ν) : Prop where
  keys : c.keys = q
  size : c.maxSize = n
  bound : ∀ m, n = some m → q.length ≤ m.toNat

theorem queueInv_new (n : Option Int) : QueueInv n [] (Naive.new n : Naive κ ν) :=
  ⟨rfl, rfl, fun _ _ => by simp⟩

theorem QueueInv.flush {n : Option Int} {q : List κ} {c : Naive κ ν} (h : QueueInv n q c) (k : κ) (v : ν) :
    (c.insert k v).toFlush = leaving (n.map Int.toNat) q k := by
  cases n with
  | none => rw [toFlush_none (c := c.insert k v) h.size]; rfl
  | some m =>
    rw [toFlush_insert h.size, h.keys]
    simp only [leaving, Option.map_some, List.length_append, List.length_singleton, Nat.lt_succ_iff]

theorem mem_pop {n : Option Nat} {q : List κ} {k x : κ}
    (h : x ∈ queueCall n q (.pop k : CacheCall κ ν)) : x ∈ q := List.mem_of_mem_erase h

/-- One eviction at most is needed. -/
theorem QueueInv.last {n : Option Int} {q : List κ} {c : Naive κ ν} (h : QueueInv n q c) (k : κ) :
    lastOf (n.map Int.toNat) (q ++ [k]) =
      (match leaving (n.map Int.toNat) q k with
        | none => q ++ [k]
        | some a => (q ++ [k]).erase a) := by
  cases n with
  | none => rfl
  | some m =>
    have hb := h.bound m rfl
    simp only [lastOf, leaving, Option.map_some]
    by_cases hl : m.toNat < (q ++ [k]).length
    · rw [if_pos hl]
      have h1 : (q ++ [k]).length - m.toNat = 1 := by
        simp only [List.length_append, List.length_singleton] at hl ⊢
        omega
      rw [h1]
      cases hq : q ++ [k] with
      | nil => simp at hq
      | cons a r => simp
    · rw [if_neg hl]
      have h1 : (q ++ [k]).length - m.toNat = 0 := by omega
      rw [h1]
      rfl

theorem QueueInv.call {n : Option Int} {q : List κ} {c : Naive κ ν} (h : QueueInv n q c)
    (call : CacheCall κ ν) : QueueInv n (queueCall (n.map Int.toNat) q call) (cacheCall c call) := by
  cases call with
  | pop k =>
    refine ⟨?_, h.size, fun m hm => Nat.le_trans List.length_erase_le (h.bound m hm)⟩
    simp only [cacheCall, Naive.pop, h.keys, queueCall]
  | put k v =>
    refine ⟨?_, (maxSize_put c k v).trans h.size, ?_⟩
    · simp only [cacheCall, queueCall]
      rw [h.last k]
      unfold Naive.put
      rw [h.flush k v]
      cases leaving (n.map Int.toNat) q k <;> simp [Naive.insert, Naive.pop, h.keys]
    · intro m hm
      subst hm
      simp only [queueCall, lastOf, Option.map_some, List.length_drop]
      omega

theorem lastCall_append (k : κ) (a b : List (CacheCall κ ν)) (o : Option ν) :
    lastCall k (a ++ b) o = lastCall k b (lastCall k a o) := by
  induction a generalizing o with
  | nil => rfl
  | cons x r ih => cases x <;> simp only [List.cons_append, lastCall, ih]

/-- **C46**, exactly, for every sequence of calls: a bounded cache is a dictionary in which
every eviction is a pop of the key that has been waiting longest. A key put twice waits
twice, and its entry goes when the first of the two leaves. -/
theorem C46_exact_partial (n : Option Int) (calls : List (CacheCall κ ν)) (k : κ) :
    (cacheCalls calls (.new n)).get k = lastCall k (withEvictions (n.map Int.toNat) [] calls) none ∧
    (cacheCalls calls (.new n)).keys = calls.foldl (queueCall (n.map Int.toNat)) [] := by
  have key : ∀ (l : List (CacheCall κ ν)) (q : List κ) (c : Naive κ ν), QueueInv n q c →
      (cacheCalls l c).get k = lastCall k (withEvictions (n.map Int.toNat) q l) (c.get k) ∧
      (cacheCalls l c).keys = l.foldl (queueCall (n.map Int.toNat)) q := by
    intro l
    induction l with
    | nil => intro q c h; exact ⟨rfl, h.keys⟩
    | cons a r ih =>
      intro q c h
      obtain ⟨i1, i2⟩ := ih _ _ (h.call a)
      refine ⟨i1.trans ?_, i2⟩
      cases a with
      | pop x =>
        simp only [withEvictions, lastCall, cacheCall, Naive.get, Naive.pop, Dict.get?_erase]
      | put x v =>
        simp only [withEvictions, lastCall, lastCall_append]
        congr 1
        simp only [cacheCall]
        unfold Naive.put
        rw [h.flush x v]
        cases leaving (n.map Int.toNat) q x with
        | none => simp [lastCall, Naive.get, Naive.insert, Dict.get?_set]
        | some y => simp [lastCall, Naive.get, Naive.insert, Naive.pop, Dict.get?_set, Dict.get?_erase]
  exact key calls [] _ (queueInv_new n)

/-- Size three: key 1 is put twice and leaves with the fourth put, although it was put
again after key 2. -/
example : withEvictions (some 3) [] [.put 1 'a', .put 2 'b', .put 1 'c', .put 3 'd'] =
      [.put 1 'a', .put 2 'b', .put 1 'c', .put 3 'd', .pop 1] ∧
    (cacheCalls [.put 1 'a', .put 2 'b', .put 1 'c', .put 3 'd'] (.new (some 3))).get 1 = none ∧
    (cacheCalls [.put 1 'a', .put 2 'b', .put 1 'c', .put 3 'd'] (.new (some 3))).get 2 = some 'b' ∧
    (cacheCalls [.put 1 'a', .put 2 'b', .put 1 'c', .put 3 'd'] (.new (some 3))).keys = [2, 1, 3] :=
  ⟨rfl, by decide⟩

end

/-! ### The files -/

section
variable {ν σ R : Type} [DecidableEq R] (O : MailOps ν)

/-- The calls with the evictions written out as they reach the disk: the file of the key
that leaves goes before the new one is written. -/
def onDisk (n : Option Nat) : List Key → List (CacheCall Key ν) → List (CacheCall Key ν)
  | _, [] => []
  | q, .put k v :: r =>
    (leaving n q k).toList.map .pop ++ .put k v :: onDisk n (queueCall n q (.put k v : CacheCall Key ν)) r
  | q, .pop k :: r => .pop k :: onDisk n (queueCall n q (.pop k : CacheCall Key ν)) r

theorem lastFile_append (name : Txt) (a b : List (CacheCall Key ν)) (o : Option Node) :
    lastFile O name (a ++ b) o = lastFile O name b (lastFile O name a o) := by
  induction a generalizing o with
  | nil => rfl
  | cons x r ih => cases x <;> simp only [List.cons_append, lastFile, ih]

theorem disk_calls (dir : Path) (accept : Txt → Bool) (size : Option Int) (fs0 : FS) (name : Txt)
    (hs : fs0.isDir (dir ++ [name]) = false) (hd : fs0.isDir dir = true) (calls : List (CacheCall Key ν))
    (hg : ∀ call ∈ calls, GoodCall O dir accept fs0 call) (f : FileCache ν) (fs : FS) (q : List Key)
    (h1 : f.dir = dir) (h2 : f.accept = accept) (h3 : QueueInv size q f.cache) (h4 : SameDirs fs0 fs)
    (h5 : ∀ k ∈ q, ∃ nm, k = some nm ∧ PlainName nm) :
    (fileCalls O calls (f, fs)).2.get? (dir ++ [name]) =
      lastFile O name (onDisk (size.map Int.toNat) q calls) (fs.get? (dir ++ [name])) := by
  induction calls generalizing f fs q with
  | nil => rfl
  | cons call r ih =>
    have hg1 := hg call (by simp)
    have hgr : ∀ call ∈ r, GoodCall O dir accept fs0 call := fun x hx => hg x (by simp [hx])
    have hsame := fileCall_same O (f, fs) call
    have hkn : none ∉ f.cache.keys := by
      rw [h3.keys]
      intro hm
      obtain ⟨n, e1, -⟩ := h5 none hm
      cases e1
    have hd' : fs.isDir f.dir = true := by rw [h1, ← h4]; exact hd
    have hs2 : fs.isDir (dir ++ [name]) = false := by rw [← h4]; exact hs
    cases call with
    | pop k =>
      obtain ⟨nm, rfl, hp⟩ := hg1
      have := ih hgr (fileCall O (f, fs) (.pop (some nm))).1 (fileCall O (f, fs) (.pop (some nm))).2
        (queueCall (size.map Int.toNat) q (.pop (some nm) : CacheCall Key ν)) (hsame.1.trans h1) (hsame.2.1.trans h2) (h3.call (.pop (some nm)))
        (h4.trans hsame.2.2.2.2) (fun k hk => h5 k (mem_pop hk))
      refine this.trans ?_
      simp only [onDisk, lastFile]
      congr 1
      refine (pop_file f fs hp hd' hs2).trans ?_
      rw [h1]
      simp only [append_inj_name, Option.some.injEq, eq_comm]
    | put k v =>
      obtain ⟨nm, b, rfl, hp, ha, hs', hb⟩ := hg1
      obtain ⟨fs', p1, p2⟩ := put_good O f fs (v := v) hp (by rw [h2]; exact ha) hd'
        (by rw [h1, ← h4]; exact hs') hb hkn
      have hcall : fileCall O (f, fs) (.put (some nm) v) = ({ f with cache := f.cache.put (some nm) v }, fs') := by
        simp only [fileCall, p1]
      rw [hcall] at hsame
      have hq5 : ∀ k ∈ queueCall (size.map Int.toNat) q (.put (some nm) v : CacheCall Key ν),
          ∃ nm, k = some nm ∧ PlainName nm := by
        intro k hk
        have : k ∈ q ++ [some nm] := by
          simp only [queueCall, lastOf] at hk
          split at hk
          · exact hk
          · exact List.mem_of_mem_drop hk
        rcases List.mem_append.1 this with h | h
        · exact h5 k h
        · exact ⟨nm, List.mem_singleton.1 h, hp⟩
      have := ih hgr { f with cache := f.cache.put (some nm) v } fs' _
        (hsame.1.trans h1) (hsame.2.1.trans h2) (h3.call (.put (some nm) v)) (h4.trans hsame.2.2.2.2) hq5
      simp only [fileCalls, List.foldl_cons, hcall]
      refine this.trans ?_
      simp only [onDisk, lastFile_append, lastFile, hb]
      congr 1
      rw [p2, h1]
      rw [h3.flush (some nm) v]
      by_cases hname : nm = name
      · subst hname; simp
      · rw [if_neg (by simpa [eq_comm] using hname), if_neg (by simpa using hname)]
        cases hlv : leaving (size.map Int.toNat) q (some nm) with
        | none => rfl
        | some k0 =>
          have hm : k0 ∈ q ++ [some nm] := by
            have := h3.flush (some nm) v
            rw [hlv] at this
            have := toFlush_mem this
            rwa [h3.keys] at this
          obtain ⟨n0, rfl, hp0⟩ : ∃ n0, k0 = some n0 ∧ PlainName n0 := by
            rcases List.mem_append.1 hm with h | h
            · exact h5 k0 h
            · exact ⟨nm, List.mem_singleton.1 h, hp⟩
          simp only [Option.toList_some, List.map_cons, List.map_nil, lastFile]
          by_cases he : n0 = name
          · subst he
            rw [removeFile_get f hp0 hd' (by rw [h1]; exact hs2), h1]
            simp
          · rw [removeFile_other f hp0 hd' (by rw [h1]; simpa [eq_comm] using he)]
            simp [he]

/-- **C49**, exactly, for every sequence of operations that can be carried out, with any
`cache_size` and with messages added again: every file is what the last operation with
its name made it, where an eviction counts as an operation that deletes the file. -/
theorem C49_files_partial (run : R → Observer ν σ) (S : Signals R) {obj : Nat} {dir : Path}
    {accept : Txt → Bool} {size : Option Int} {w w' : World ν σ} {c : Corpus}
    (h : newFileCorpus obj dir accept size w = .ok (c, w')) (hne : corpusLen c w' ≠ 0)
    (ops : List (Op ν R)) (hops : ∀ op ∈ ops, opCorpus op = c)
    (hg : ∀ op ∈ ops, GoodCall O dir accept w.fs (opCall O op))
    (name : Txt) (hs : w.fs.isDir (dir ++ [name]) = false) :
    (runOps O run S ops w').fs.get? (dir ++ [name]) =
      lastFile O name (onDisk (size.map Int.toNat) [] (ops.map (opCall O))) (w.fs.get? (dir ++ [name])) := by
  obtain ⟨f, hf', hd, f1, f2, f3, -⟩ := newFileCorpus_file h hne
  obtain ⟨-, -, hfs, -⟩ := newFileCorpus_cases h
  rw [(runOps_file O run S c ops hops w' f hf').2, hfs]
  exact disk_calls O dir accept size w.fs name hs (by rw [← hfs]; exact hd) (ops.map (opCall O)) (by
      intro call hcall
      obtain ⟨op, hop, rfl⟩ := List.mem_map.1 hcall
      exact hg op hop) f w.fs [] f1 f2 (by rw [f3]; exact queueInv_new size) (.refl _) (by simp)

/-- A message added twice: its second version is on disk, until the first of its two
entries in the queue leaves; then its file is gone although it is among the last two
messages added. -/
example :
    onDisk (some 2) [] [.put (some (txt "b")) 1, .put (some (txt "b")) 2, .put (some (txt "c")) 3] =
      [.put (some (txt "b")) 1, .put (some (txt "b")) 2, .pop (some (txt "b")), .put (some (txt "c")) 3] := rfl

example :
    (newFileCorpus 0 [txt "d"] (fun _ => true) (some 2)
      (⟨[], oneFile, ()⟩ : World (Option Txt × List Nat) Unit)).map (fun p =>
        let w := runOps sampleMail (fun _ _ _ => pure ()) (⟨[], []⟩ : Signals Unit)
          [.add .dedup p.1 (some (txt "b"), [7]) none true, .add .dedup p.1 (some (txt "b"), [9]) none true,
            .add .dedup p.1 (some (txt "c"), [8]) none true] p.2
        (w.fs.get? [txt "d", txt "b"], w.fs.get? [txt "d", txt "c"], w.fs.get? [txt "d", txt "a"])) =
    .ok (none, some (.file [8]), some (.file [1, 2])) := by decide

end

end Sb.Props
