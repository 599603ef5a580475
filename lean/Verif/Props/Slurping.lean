import Verif.Model.Slurping
import Verif.Model.Exact
import Verif.Model.Tokens
import Verif.Props.Training
import Verif.Props.Net

/-
C62: SlurpingClassifier.  C72: base_url.
-/

set_option linter.unusedSectionVars false

namespace Sb.Props
open Py Py.Text Sb.Mail Sb.Net Sb.Slurp

section
variable {W K : Type} [Field K] [LinearOrder K] (F : FloatOps K) [LinearOrder W] [BigramFormat W]

/-- A call of one of the public methods; `allowed` says whether the file system lets
the cache directory be made, should the call try. -/
inductive SlurpCall (W : Type) where
  | learn (allowed : Bool) (s : Stream W) (isSpam : Bool)
  | unlearn (allowed : Bool) (s : Stream W) (isSpam : Bool)
  | spamprob (s : Stream W) (evidence : Bool)

/-- One call: the exception it raises, if any, and the object afterwards. -/
def slurpStep (it : SetIter W) (o : Obj W K) : SlurpCall W → Option Err × Obj W K
  | .learn allowed s b => match Slurp.learn allowed it s b o with
    | (.ok _, o) => (none, o)
    | (.error e, o) => (some e, o)
  | .unlearn allowed s b => match Slurp.unlearn allowed it s b o with
    | (.ok _, o) => (none, o)
    | (.error e, o) => (some e, o)
  | .spamprob s ev => match Slurp.spamprob F it s ev o with
    | (.ok _, o) => (none, o)
    | (.error e, o) => (some e, o)

/-- A history of calls, with the exceptions raised. -/
def slurpRun (it : SetIter W) : List (SlurpCall W) → Obj W K → List (Option Err) × Obj W K
  | [], o => ([], o)
  | c :: rest, o =>
    let (r, o) := slurpStep F it o c
    let (rs, o) := slurpRun it rest o
    (r :: rs, o)

/-- Nothing was learned and the set-up is not done. -/
def Untrained (o o' : Obj W K) : Prop :=
  o'.clf.store = o.clf.store ∧ o'.clf.nspam = o.clf.nspam ∧ o'.clf.nham = o.clf.nham ∧
    o'.clf.useBigrams = o.clf.useBigrams ∧ o'.setupDone = false

theorem setup_run (allowed : Bool) (o : Obj W K) :
    ∃ d, setup allowed o =
      (.error (if o.dirExists || allowed then .typeError else .osError), { o with dirExists := d }) := by
  obtain ⟨c, sd, de⟩ := o
  cases de <;> cases allowed
  · exact ⟨false, rfl⟩
  · exact ⟨true, rfl⟩
  · exact ⟨true, rfl⟩
  · exact ⟨true, rfl⟩

theorem trainWith_run (allowed : Bool) (s : Stream W)
    (train : List W → M (Clf (Dict W WordInfo) K) Unit) (o : Obj W K) (hs : o.setupDone = false) :
    ∃ d, trainWith allowed s train o =
      (.error (match o.clf.useBigrams with
        | none => .attributeError
        | some _ => if o.dirExists || allowed then .typeError else .osError),
       { o with dirExists := d }) := by
  unfold trainWith
  rw [M.bind_run_ok (M.get_run o)]
  cases hu : o.clf.useBigrams with
  | none => exact ⟨o.dirExists, rfl⟩
  | some ub =>
    obtain ⟨d, hd⟩ := setup_run allowed o
    refine ⟨d, ?_⟩
    have hg : generateSlurp allowed o =
        (.error (if o.dirExists || allowed then .typeError else .osError), { o with dirExists := d }) := by
      unfold generateSlurp
      rw [if_neg (by rw [hs]; simp)]
      exact M.bind_run_error hd
    exact M.bind_run_error hg

theorem spamprob_base_frame (it : SetIter W) (s : Stream W) (ev : Bool)
    (c : Clf (Dict W WordInfo) K) :
    (Sb.spamprob F (memory W) it s ev c).2.store = c.store ∧
      (Sb.spamprob F (memory W) it s ev c).2.nspam = c.nspam ∧
      (Sb.spamprob F (memory W) it s ev c).2.nham = c.nham ∧
      (Sb.spamprob F (memory W) it s ev c).2.useBigrams = c.useBigrams :=
  spamprob_frame F (memory W)
    (fun c' => c'.store = c.store ∧ c'.nspam = c.nspam ∧ c'.nham = c.nham ∧
      c'.useBigrams = c.useBigrams)
    (fun _ _ h => h) (fun _ _ h => h) it s ev c ⟨rfl, rfl, rfl, rfl⟩

theorem slurp_spamprob_run (it : SetIter W) (s : Stream W) (ev : Bool) (o : Obj W K)
    (hs : o.setupDone = false) :
    (∃ e, (Slurp.spamprob F it s ev o).1 = .error e ∧
      ((∃ r, (Sb.spamprob F (memory W) it s true o.clf).1 = .ok r) → e = .typeError)) ∧
      Untrained o (Slurp.spamprob F it s ev o).2 := by
  have hf := spamprob_base_frame F it s true o.clf
  unfold Slurp.spamprob
  rw [M.bind_run]
  unfold onClf
  cases hr : Sb.spamprob F (memory W) it s true o.clf with
  | mk r c =>
    rw [hr] at hf
    simp only at hf ⊢
    cases r with
    | error e =>
      exact ⟨⟨e, rfl, by rintro ⟨r, hr⟩; simp at hr⟩, hf.1, hf.2.1, hf.2.2.1, hf.2.2.2, hs⟩
    | ok r => exact ⟨⟨.typeError, rfl, fun _ => rfl⟩, hf.1, hf.2.1, hf.2.2.1, hf.2.2.2, hs⟩

/-- The claim of C62, its first part: a new SlurpingClassifier can learn a message. -/
def C62Claim : Prop :=
  ∀ (it : SetIter String) (ws : List String) (isSpam : Bool),
    (Slurp.learn true it (.list ws) isSpam (Obj.new false true : Obj String ℚ)).1 = .ok ()

theorem C62_claim_false : ¬ C62Claim := by
  intro h
  have h1 := h SetIter.dedup [] true
  obtain ⟨d, hd⟩ := trainWith_run true (.list []) (fun ws => addMsg (memory String) SetIter.dedup ws true)
    (Obj.new false true : Obj String ℚ) rfl
  unfold Slurp.learn at h1
  rw [hd] at h1
  cases h1

/-- C62, what holds instead: on a SlurpingClassifier made by its constructor, every
call of `learn`, `unlearn` and `spamprob` in every history raises, and no history
changes a count.  Missing: they should behave like those of Classifier. -/
theorem C62_never_works_partial (it : SetIter W) (ub dirExists : Bool) (calls : List (SlurpCall W)) :
    (∀ r ∈ (slurpRun F it calls (Obj.new ub dirExists : Obj W K)).1, r ≠ none) ∧
      (slurpRun F it calls (Obj.new ub dirExists : Obj W K)).1.length = calls.length ∧
      (slurpRun F it calls (Obj.new ub dirExists : Obj W K)).2.clf.store = Dict.empty ∧
      (slurpRun F it calls (Obj.new ub dirExists : Obj W K)).2.clf.nspam = 0 ∧
      (slurpRun F it calls (Obj.new ub dirExists : Obj W K)).2.clf.nham = 0 := by
  suffices ∀ o : Obj W K, o.setupDone = false →
      (∀ r ∈ (slurpRun F it calls o).1, r ≠ none) ∧
      (slurpRun F it calls o).1.length = calls.length ∧
      (slurpRun F it calls o).2.clf.store = o.clf.store ∧
      (slurpRun F it calls o).2.clf.nspam = o.clf.nspam ∧
      (slurpRun F it calls o).2.clf.nham = o.clf.nham from this _ rfl
  intro o ho
  induction calls generalizing o with
  | nil => simp [slurpRun]
  | cons c rest ih =>
    have step : (slurpStep F it o c).1 ≠ none ∧ Untrained o (slurpStep F it o c).2 := by
      cases c with
      | learn allowed s b =>
        obtain ⟨d, hd⟩ := trainWith_run allowed s (fun ws => addMsg (memory W) it ws b) o ho
        simp only [slurpStep, Slurp.learn]
        rw [hd]
        exact ⟨by simp, rfl, rfl, rfl, rfl, ho⟩
      | unlearn allowed s b =>
        obtain ⟨d, hd⟩ := trainWith_run allowed s (fun ws => removeMsg (memory W) it ws b) o ho
        simp only [slurpStep, Slurp.unlearn]
        rw [hd]
        exact ⟨by simp, rfl, rfl, rfl, rfl, ho⟩
      | spamprob s ev =>
        obtain ⟨⟨e, he, _⟩, hu⟩ := slurp_spamprob_run F it s ev o ho
        simp only [slurpStep]
        cases hr : Slurp.spamprob F it s ev o with
        | mk r o' =>
          rw [hr] at he hu
          simp only at he; subst he
          exact ⟨by simp, hu⟩
    have := ih (slurpStep F it o c).2 step.2.2.2.2.2
    simp only [slurpRun, List.mem_cons, List.length_cons]
    refine ⟨?_, by rw [this.2.1], by rw [this.2.2.1, step.2.1], by rw [this.2.2.2.1, step.2.2.1],
      by rw [this.2.2.2.2, step.2.2.2.1]⟩
    rintro r (rfl | h)
    · exact step.1
    · exact this.1 r h

/-- C62: which exception: training raises TypeError, or OSError if the cache directory
is missing and cannot be made. -/
theorem C62_training_error (it : SetIter W) (ub dirExists allowed : Bool) (s : Stream W) (b : Bool) :
    (Slurp.learn allowed it s b (Obj.new ub dirExists : Obj W K)).1 =
        .error (if dirExists || allowed then .typeError else .osError) ∧
      (Slurp.unlearn allowed it s b (Obj.new ub dirExists : Obj W K)).1 =
        .error (if dirExists || allowed then .typeError else .osError) := by
  constructor
  · obtain ⟨d, hd⟩ := trainWith_run allowed s (fun ws => addMsg (memory W) it ws b)
      (Obj.new ub dirExists : Obj W K) rfl
    rw [Slurp.learn, hd]; rfl
  · obtain ⟨d, hd⟩ := trainWith_run allowed s (fun ws => removeMsg (memory W) it ws b)
      (Obj.new ub dirExists : Obj W K) rfl
    rw [Slurp.unlearn, hd]; rfl

/-- C62: scoring raises TypeError whenever the base class's scoring succeeds. -/
theorem C62_scoring_error (it : SetIter W) (s : Stream W) (ev : Bool) (o : Obj W K)
    (ho : o.setupDone = false)
    (h : ∃ r, (Sb.spamprob F (memory W) it s true o.clf).1 = .ok r) :
    (Slurp.spamprob F it s ev o).1 = .error .typeError := by
  obtain ⟨⟨e, he, h2⟩, _⟩ := slurp_spamprob_run F it s ev o ho
  rw [he, h2 h]

end

/-! ### C72: base_url -/

/-- The part of a URL (without protocol) before its first slash. -/
def HostOf (url host : Txt) : Prop :=
  47 ∉ host ∧ (url = host ∨ ∃ path, url = host ++ 47 :: path)

theorem beforeSlash_host {url host : Txt} (h : HostOf url host) : beforeSlash (url ++ [47]) = host := by
  have key : ∀ rest, beforeSlash (host ++ 47 :: rest) = host := by
    intro rest
    unfold beforeSlash
    rw [List.takeWhile_append_of_pos]
    · simp
    · intro c hc
      have : c ≠ 47 := by rintro rfl; exact h.1 hc
      simpa using this
  rcases h.2 with rfl | ⟨path, rfl⟩
  · exact key []
  · rw [List.append_assoc, List.cons_append]; exact key _

theorem joinWith_two (a b : Txt) : joinWith 46 [a, b] = a ++ 46 :: b := rfl
theorem joinWith_three (a b c : Txt) : joinWith 46 [a, b, c] = a ++ 46 :: (b ++ 46 :: c) := rfl

/-- The number of labels kept of a host whose last label is `last`. -/
def keptLabels (last : Txt) : Nat := if last.length < 3 then 3 else 2

/-- C72: for a URL with a host of more than two labels, `base_url` is the suffix of the
host at a label boundary that has two labels, or three if the last label has fewer than
three characters (a country); a shorter host is returned whole.  Path and query never
matter. -/
theorem C72_base_url (url host : Txt) (h : HostOf url host) :
    (host.count 46 ≤ 1 → baseUrl url = host) ∧
      (∀ init last, host = init ++ 46 :: last → 46 ∉ last → 1 < host.count 46 →
        LabelSuffix host (baseUrl url) ∧ (baseUrl url).count 46 + 1 = keptLabels last) := by
  have hl := length_splitOn 46 host
  constructor
  · intro hc
    unfold baseUrl
    simp only [beforeSlash_host h]
    rw [if_neg (by omega)]
  · intro init last hh hlast hc
    have hlen : 3 ≤ (splitOn 46 host).length := by omega
    obtain ⟨pre, x, y, z, hp⟩ : ∃ pre x y z, splitOn 46 host = pre ++ [x, y, z] := by
      have h1 := lastN_split 3 (splitOn 46 host)
      obtain ⟨a, ha⟩ := h1
      have h3 := length_lastN hlen
      generalize lastN 3 (splitOn 46 host) = l at ha h3
      match l, h3 with
      | [x, y, z], _ => exact ⟨a, x, y, z, ha⟩
    have hz : z = last := by
      have h2 : splitOn 46 host = splitOn 46 init ++ [last] := by
        rw [hh, splitOn_append_sep, splitOn_of_not_mem hlast]
      rw [hp, show pre ++ [x, y, z] = (pre ++ [x, y]) ++ [z] by simp] at h2
      simpa using (List.append_inj' h2 rfl).2
    have hd : ∀ p ∈ [x, y, z], 46 ∉ p := by
      intro p hpm
      exact not_mem_of_mem_splitOn (t := host) (by rw [hp]; exact List.mem_append_right _ hpm)
    have e : baseUrl url = if z.length < 3 then joinWith 46 [x, y, z] else joinWith 46 [y, z] := by
      unfold baseUrl
      simp only [beforeSlash_host h]
      rw [if_pos (by omega), hp]
      simp [joinWith_two, joinWith_three, List.getD]
    have cnt : ∀ ps : List Txt, ps ≠ [] → (∀ p ∈ ps, 46 ∉ p) → (joinWith 46 ps).count 46 + 1 = ps.length := by
      intro ps hne hps
      have := length_splitOn 46 (joinWith 46 ps)
      rw [splitOn_joinWith hne hps] at this
      omega
    rw [e, keptLabels, ← hz]
    by_cases h3 : z.length < 3
    · simp only [h3, if_true]
      refine ⟨(labelSuffix_iff _ _).2 ⟨3, by omega, hlen, ?_⟩, cnt _ (by simp) hd⟩
      rw [hp, show (3 : Nat) = [x, y, z].length from rfl, lastN_eq_of_append]
    · simp only [h3, if_false]
      refine ⟨(labelSuffix_iff _ _).2 ⟨2, by omega, by omega, ?_⟩,
        cnt _ (by simp) (fun p hpm => hd p (List.mem_cons_of_mem _ hpm))⟩
      rw [hp, show pre ++ [x, y, z] = (pre ++ [x]) ++ [y, z] by simp,
        show (2 : Nat) = [y, z].length from rfl, lastN_eq_of_append]

example : baseUrl (txt "www.massey.ac.nz/~tameyer/index.html?you=me") = txt "massey.ac.nz" ∧
    baseUrl (txt "id.example.com") = txt "example.com" ∧ baseUrl (txt "localhost/x") = txt "localhost" := by
  decide
example : HostOf (txt "id.example.com/x") (txt "id.example.com") :=
  ⟨by decide, .inr ⟨txt "x", by decide⟩⟩

end Sb.Props
