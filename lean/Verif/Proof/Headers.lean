import Verif.Model.Message

/-
Lemmas about header lists and about the steps of add_sb_headers and
remove_sb_headers.
-/

namespace Sb.Mail
open Py

theorem sameName_iff {a b : Txt} : sameName a b = true ↔ lower a = lower b := by
  simp [sameName]

@[simp] theorem sameName_refl (a : Txt) : sameName a a = true := sameName_iff.2 rfl

theorem sameName_symm {a b : Txt} (h : sameName a b = true) : sameName b a = true :=
  sameName_iff.2 (sameName_iff.1 h).symm

theorem sameName_trans {a b c : Txt} (h : sameName a b = true) (h' : sameName b c = true) :
    sameName a c = true := sameName_iff.2 ((sameName_iff.1 h).trans (sameName_iff.1 h'))

/-- Two names different up to case are not both names of one header. -/
theorem sameName_disj {a b c : Txt} (h : sameName a b = true) (h' : sameName b c = false) :
    sameName a c = false := by
  cases hc : sameName a c with
  | false => rfl
  | true => rw [sameName_trans (sameName_symm h) hc] at h'; cases h'

namespace Headers

/-- The first header of a name. -/
def first (h : Headers) (n : Txt) : Option (Txt × Stored) := h.find? (fun e => sameName e.1 n)

theorem get_eq (h : Headers) (n : Txt) :
    h.get n = match h.first n with | some e => fetch e.2 | none => .none := rfl

theorem first_append (h h' : Headers) (n : Txt) :
    (h ++ h').first n = (h.first n).or (h'.first n) := by
  simp [first, List.find?_append]

theorem first_eq_none {h : Headers} {n : Txt} :
    h.first n = none ↔ ∀ e ∈ h, sameName e.1 n = false := by
  simp [first, List.find?_eq_none]

theorem first_some {h : Headers} {n : Txt} {e : Txt × Stored} (hf : h.first n = some e) :
    ∃ pre post, h = pre ++ e :: post ∧ (∀ x ∈ pre, sameName x.1 n = false) ∧
      sameName e.1 n = true := by
  obtain ⟨h1, pre, post, rfl, h2⟩ := List.find?_eq_some_iff_append.1 hf
  exact ⟨pre, post, rfl, by simpa using h2, h1⟩

theorem first_of {pre post : Headers} {n : Txt} {e : Txt × Stored}
    (h1 : ∀ x ∈ pre, sameName x.1 n = false) (h2 : sameName e.1 n = true) :
    first (pre ++ e :: post) n = some e := by
  rw [first_append, first_eq_none.2 h1]
  simp [first, h2]

theorem replace_of {pre post : Headers} {n : Txt} {e : Txt × Stored} (v : Stored)
    (h1 : ∀ x ∈ pre, sameName x.1 n = false) (h2 : sameName e.1 n = true) :
    replace (pre ++ e :: post) n v = some (pre ++ (e.1, v) :: post) := by
  induction pre with
  | nil => simp [replace, h2]
  | cons x r ih =>
    have hx := h1 x (by simp)
    simp only [List.cons_append, replace, hx]
    rw [ih (fun y hy => h1 y (by simp [hy]))]
    rfl

theorem replace_none {h : Headers} {n : Txt} (v : Stored)
    (h1 : ∀ x ∈ h, sameName x.1 n = false) : replace h n v = none := by
  induction h with
  | nil => rfl
  | cons x r ih =>
    simp only [replace, h1 x (by simp)]
    rw [ih (fun y hy => h1 y (by simp [hy]))]
    rfl

/-- What replace_header does. -/
theorem replace_some {h h' : Headers} {n : Txt} {v : Stored} (hr : replace h n v = some h') :
    ∃ pre e post, h = pre ++ e :: post ∧ (∀ x ∈ pre, sameName x.1 n = false) ∧
      sameName e.1 n = true ∧ h' = pre ++ (e.1, v) :: post := by
  cases hf : h.first n with
  | none => rw [replace_none v (first_eq_none.1 hf)] at hr; cases hr
  | some e =>
    obtain ⟨pre, post, rfl, h1, h2⟩ := first_some hf
    rw [replace_of v h1 h2] at hr
    cases hr
    exact ⟨pre, e, post, rfl, h1, h2, rfl⟩

theorem replace_append {h h' k : Headers} {n : Txt} {v : Stored} (hr : replace h n v = some h') :
    replace (h ++ k) n v = some (h' ++ k) := by
  obtain ⟨pre, e, post, rfl, h1, h2, rfl⟩ := replace_some hr
  rw [List.append_assoc, List.cons_append, replace_of v h1 h2, List.append_assoc]
  rfl

/-- The first header of another name is not affected. -/
theorem first_replace_ne {h h' : Headers} {n k : Txt} {v : Stored} (hr : replace h n v = some h')
    (hne : sameName n k = false) : h'.first k = h.first k := by
  obtain ⟨pre, e, post, rfl, h1, h2, rfl⟩ := replace_some hr
  have h3 : sameName e.1 k = false := sameName_disj h2 hne
  rw [first_append, first_append]
  simp only [first, List.find?_cons, h3]

theorem first_replace {h h' : Headers} {n : Txt} {v : Stored} (hr : replace h n v = some h') :
    ∃ k, h'.first n = some (k, v) := by
  obtain ⟨pre, e, post, rfl, h1, h2, rfl⟩ := replace_some hr
  exact ⟨e.1, first_of (e := (e.1, v)) h1 h2⟩

/-- Replacing twice is replacing once; replacing by the old value is nothing. -/
theorem replace_replace {h h' : Headers} {n : Txt} {v w : Stored} (hr : replace h n v = some h') :
    replace h' n w = replace h n w := by
  obtain ⟨pre, e, post, rfl, h1, h2, rfl⟩ := replace_some hr
  rw [replace_of w h1 h2, replace_of (e := (e.1, v)) w h1 h2]

theorem replace_same {h : Headers} {n k : Txt} {v : Stored} (hf : h.first n = some (k, v)) :
    replace h n v = some h := by
  obtain ⟨pre, post, rfl, h1, h2⟩ := first_some hf
  rw [replace_of v h1 h2]

theorem names_replace {h h' : Headers} {n : Txt} {v : Stored} (hr : replace h n v = some h') :
    h'.map (·.1) = h.map (·.1) := by
  obtain ⟨pre, e, post, rfl, h1, h2, rfl⟩ := replace_some hr
  simp

theorem first_del (h : Headers) (n k : Txt) (hne : sameName n k = false) :
    (h.del n).first k = h.first k := by
  induction h with
  | nil => rfl
  | cons x r ih =>
    unfold del first at *
    cases hx : sameName x.1 n with
    | true =>
      have : sameName x.1 k = false := sameName_disj hx hne
      simp only [List.filter_cons, hx, Bool.not_true, Bool.false_eq_true, if_false,
        List.find?_cons, this]
      exact ih
    | false => simp only [List.filter_cons, hx, Bool.not_false, if_true, List.find?_cons, ih]

/-- Deleting all names of a list. -/
theorem foldl_del (ns : List Txt) (h : Headers) :
    ns.foldl Headers.del h = h.filter (fun e => ns.all (fun n => !sameName e.1 n)) := by
  induction ns generalizing h with
  | nil => simp
  | cons n r ih =>
    rw [List.foldl_cons, ih, del, List.filter_filter]
    congr 1
    funext e
    simp [Bool.and_comm]

/-- The first header of a name survives. -/
def Keeps (n : Txt) (h h' : Headers) : Prop := ∀ e, h.first n = some e → h'.first n = some e

theorem Keeps.refl (n : Txt) (h : Headers) : Keeps n h h := fun _ => id
theorem Keeps.trans {n : Txt} {a b c : Headers} (h : Keeps n a b) (h' : Keeps n b c) :
    Keeps n a c := fun e he => h' e (h e he)

theorem Keeps.append (n : Txt) (h k : Headers) : Keeps n h (h ++ k) := by
  intro e he; rw [first_append, he]; rfl

theorem Keeps.replace {n k : Txt} {h h' : Headers} {v : Stored} (hr : h.replace n v = some h')
    (hne : sameName n k = false) : Keeps k h h' := by
  intro e he; rw [first_replace_ne hr hne, he]

end Headers

open Headers

/-- A step that keeps the first header of a name, also if it raises. -/
def KeepsM {α : Type} (n : Txt) (f : M Msg α) : Prop :=
  ∀ m, Keeps n m.headers (f m).2.headers

theorem KeepsM.bind {α β : Type} {n : Txt} {f : M Msg α} {g : α → M Msg β} (hf : KeepsM n f)
    (hg : ∀ a, KeepsM n (g a)) : KeepsM n (f >>= g) := by
  intro m
  rw [M.bind_run]
  have h1 := hf m
  generalize f m = r at h1
  obtain ⟨r, m'⟩ := r
  cases r with
  | ok a => exact h1.trans (hg a m')
  | error e => exact h1

theorem KeepsM.pure {α : Type} (n : Txt) (a : α) : KeepsM n (Pure.pure a : M Msg α) :=
  fun m => Keeps.refl n m.headers

theorem KeepsM.raise {α : Type} (n : Txt) (e : Err) : KeepsM n (M.raise e : M Msg α) :=
  fun m => Keeps.refl n m.headers

theorem KeepsM.addHeader (n k : Txt) (v : Stored) : KeepsM n (addHeader k v) :=
  fun m => Keeps.append n m.headers _

theorem KeepsM.addScore (n : Txt) (F : Fmt) (p : PyFloat) (o : Opts) : KeepsM n (addScore F p o) := by
  unfold Mail.addScore; split
  · exact KeepsM.addHeader _ _ _
  · exact KeepsM.pure _ _

theorem KeepsM.addLevel (n : Txt) (F : Fmt) (p : PyFloat) (o : Opts) : KeepsM n (addLevel F p o) := by
  unfold Mail.addLevel; split
  · split
    · exact KeepsM.addHeader _ _ _
    · exact KeepsM.raise _ _
  · exact KeepsM.pure _ _

theorem KeepsM.addEvidence (n : Txt) (F : Fmt) (cl : List (Word × PyFloat)) (o : Opts) :
    KeepsM n (addEvidence F cl o) := by
  unfold Mail.addEvidence; split
  · split
    · exact KeepsM.addHeader _ _ _
    · exact KeepsM.raise _ _
  · exact KeepsM.pure _ _

theorem KeepsM.addId (n : Txt) (o : Opts) : KeepsM n (addId o) := by
  intro m; unfold Mail.addId; split
  · exact KeepsM.addHeader _ _ _ m
  · exact Keeps.refl _ _

theorem KeepsM.notate {n k : Txt} (pre : Txt) (hne : sameName k n = false) :
    KeepsM n (notate k pre) := by
  intro m
  unfold Mail.notate
  split
  · exact Keeps.refl _ _
  · split
    · rename_i h; exact Keeps.replace h hne
    · exact Keeps.append _ _ _

theorem KeepsM.addNotations {n : Txt} (a b : Notate) (h1 : sameName (txt "To") n = false)
    (h2 : sameName (txt "Subject") n = false) : KeepsM n (addNotations a b) := by
  unfold Mail.addNotations
  refine KeepsM.bind ?_ fun _ => ?_
  · intro m; unfold addToNotation
    split
    · exact Keeps.refl _ _
    · split
      · exact KeepsM.notate _ h1 m
      · exact Keeps.refl _ _
  · intro m; unfold addSubjectNotation
    split
    · exact Keeps.refl _ _
    · split
      · exact KeepsM.notate _ h2 m
      · exact Keeps.refl _ _

/-- The steps after the classification header. -/
theorem keeps_rest {n : Txt} (F : Fmt) (p : PyFloat) (cl : List (Word × PyFloat)) (o : Opts)
    (h1 : sameName (txt "To") n = false) (h2 : sameName (txt "Subject") n = false) :
    KeepsM n (do addScore F p o; addLevel F p o; addEvidence F cl o; addId o
                 addNotations o.notateTo o.notateSubject) :=
  .bind (.addScore _ _ _ _) fun _ => .bind (.addLevel _ _ _ _) fun _ =>
    .bind (.addEvidence _ _ _ _) fun _ => .bind (.addId _ _) fun _ => .addNotations _ _ h1 h2

/-- add_sb_headers as the classification step followed by the rest. -/
theorem addSbHeaders_run (F : Fmt) (p : PyFloat) (cl : List (Word × PyFloat)) (o : Opts) (m : Msg) :
    addSbHeaders F p cl o m =
      (do addScore F p o; addLevel F p o; addEvidence F cl o; addId o
          addNotations o.notateTo o.notateSubject : M Msg Unit)
        { m with c := some (clsOf p)
                 headers := m.headers ++ [(classificationName, .str (clsOf p).name)] } := rfl

/-- A step that only appends headers of certain names. -/
def Appends (ns : List Txt) (f : M Msg Unit) : Prop :=
  ∀ m, ∃ r ext, f m = (r, { m with headers := m.headers ++ ext }) ∧ ∀ e ∈ ext, e.1 ∈ ns

theorem Appends.bind {ns : List Txt} {f g : M Msg Unit} (hf : Appends ns f) (hg : Appends ns g) :
    Appends ns (do f; g) := by
  intro m
  obtain ⟨r, ext, h1, h2⟩ := hf m
  cases r with
  | error e => exact ⟨.error e, ext, M.bind_run_error h1, h2⟩
  | ok u =>
    obtain ⟨r', ext', h3, h4⟩ := hg { m with headers := m.headers ++ ext }
    refine ⟨r', ext ++ ext', ?_, ?_⟩
    · rw [M.bind_run_ok h1, h3]
      simp
    · intro e he
      rcases List.mem_append.1 he with he | he
      · exact h2 e he
      · exact h4 e he

theorem Appends.pure (ns : List Txt) : Appends ns (Pure.pure ()) :=
  fun m => ⟨.ok (), [], by simp, by simp⟩

theorem Appends.raise (ns : List Txt) (e : Err) : Appends ns (M.raise e) :=
  fun m => ⟨.error e, [], by simp, by simp⟩

theorem Appends.addHeader {ns : List Txt} {n : Txt} (hn : n ∈ ns) (v : Stored) :
    Appends ns (addHeader n v) :=
  fun m => ⟨.ok (), [(n, v)], by simp [Mail.addHeader, Headers.set], by simpa using hn⟩

/-- The steps between the classification header and the notations. -/
def middle (F : Fmt) (p : PyFloat) (cl : List (Word × PyFloat)) (o : Opts) : M Msg Unit := do
  addScore F p o; addLevel F p o; addEvidence F cl o; addId o

theorem middle_appends (F : Fmt) (p : PyFloat) (cl : List (Word × PyFloat)) (o : Opts) :
    Appends sbNames (middle F p cl o) := by
  unfold middle
  refine .bind ?_ (.bind ?_ (.bind ?_ ?_))
  · unfold Mail.addScore; split
    · exact .addHeader (by decide) _
    · exact .pure _
  · unfold Mail.addLevel; split
    · split
      · exact .addHeader (by decide) _
      · exact .raise _ _
    · exact .pure _
  · unfold Mail.addEvidence; split
    · split
      · exact .addHeader (by decide) _
      · exact .raise _ _
    · exact .pure _
  · intro m
    unfold Mail.addId; split
    · exact Appends.addHeader (by decide) _ m
    · exact ⟨.ok (), [], by simp, by simp⟩

theorem bind_assoc5 (a b c d e : M Msg Unit) (m : Msg) :
    (do a; b; c; d; e : M Msg Unit) m = (do (do a; b; c; d); e : M Msg Unit) m := by
  simp only [M.bind_run]
  rcases a m with ⟨_ | _, m1⟩
  · rfl
  · simp only
    rcases b m1 with ⟨_ | _, m2⟩
    · rfl
    · simp only
      rcases c m2 with ⟨_ | _, m3⟩
      · rfl
      · rfl

/-- What add_sb_headers has appended before it looks at the notations. -/
theorem addSbHeaders_shape (F : Fmt) (p : PyFloat) (cl : List (Word × PyFloat)) (o : Opts) (m : Msg) :
    ∃ ext, (∀ e ∈ ext, e.1 ∈ sbNames) ∧
      ((∃ e, addSbHeaders F p cl o m =
          (.error e, { m with c := some (clsOf p), headers := m.headers ++ ext })) ∨
        addSbHeaders F p cl o m = addNotations o.notateTo o.notateSubject
          { m with c := some (clsOf p), headers := m.headers ++ ext }) := by
  obtain ⟨r, ext, h1, h2⟩ := middle_appends F p cl o
    { m with c := some (clsOf p)
             headers := m.headers ++ [(classificationName, .str (clsOf p).name)] }
  refine ⟨(classificationName, .str (clsOf p).name) :: ext, ?_, ?_⟩
  · intro e he
    rcases List.mem_cons.1 he with rfl | he
    · exact List.mem_cons_self ..
    · exact h2 e he
  · rw [addSbHeaders_run, bind_assoc5]
    change (∃ e, (middle F p cl o >>= fun _ => _) _ = _) ∨ (middle F p cl o >>= fun _ => _) _ = _
    cases r with
    | error e => left; exact ⟨e, by rw [M.bind_run_error h1]; simp⟩
    | ok u => right; rw [M.bind_run_ok h1]; simp

end Sb.Mail
