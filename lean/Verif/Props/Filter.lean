import Verif.Model.Filter
import Verif.Props.Restart
import Verif.Props.MessageHeaders
import Verif.Props.Evidence

/-
Property C114: a mail filter.
-/

set_option linter.unusedSectionVars false
namespace Sb.Props
open Sb Sb.Mail Sb.Tokenize Sb.Strip Py Py.Text Spec

/-! ### The words of the statements -/

/-- The message when the filter has removed the SpamBayes headers it came with. -/
def cleaned (m : Msg) : Headers := (removeSbHeaders true true m).2.headers

/-- What the filter adds to To and Subject can be taken off again: a header that gets a
notation is there, and is a str; one that gets none has no notation of its own. -/
def CanBeCleaned (marks : Mail.Opts) (c : Cls) (h : Headers) : Prop :=
  Restorable h "To" toSuffix (WantsNotation c marks.notateTo) ∧
  Restorable h "Subject" subjectSuffix (WantsNotation c marks.notateSubject)

/-! ### Lemmas -/

theorem removeNotation_frame (flag : Bool) (n suffix : Txt) (m : Msg) :
    (removeNotation flag n suffix m).2 = { m with headers := (removeNotation flag n suffix m).2.headers } := by
  rcases removeNotation_cases flag n suffix m with h | ⟨h, -⟩ | ⟨c, u, h, -, -, hr, hrun⟩
  · rw [h]
  · rw [h]
  · rw [hrun]

/-- Removing a notation does not depend on the other fields. -/
theorem removeNotation_c (flag : Bool) (n suffix : Txt) (m : Msg) (c : Option Cls) :
    removeNotation flag n suffix { m with c := c } =
      ((removeNotation flag n suffix m).1, { (removeNotation flag n suffix m).2 with c := c }) := by
  unfold removeNotation
  cases m.headers.get n with
  | none => rfl
  | header t => cases flag <;> rfl
  | str t =>
    dsimp only
    split
    · rfl
    · split
      · rfl
      · cases m.headers.replace n _ with
        | none => rfl
        | some h => rfl

theorem removeSb_c (m : Msg) (c : Option Cls) :
    removeSbHeaders true true { m with c := c } =
      ((removeSbHeaders true true m).1, { (removeSbHeaders true true m).2 with c := c }) := by
  rw [removeSbHeaders_run, removeSbHeaders_run, M.bind_run, M.bind_run]
  have h := removeNotation_c true (txt "Subject") subjectSuffix
    { m with headers := sbNames.foldl Headers.del m.headers } c
  rw [show ({ ({ m with c := c } : Msg) with headers := sbNames.foldl Headers.del ({ m with c := c } : Msg).headers } : Msg) =
    { ({ m with headers := sbNames.foldl Headers.del m.headers } : Msg) with c := c } from rfl, h]
  generalize removeNotation true (txt "Subject") subjectSuffix
    { m with headers := sbNames.foldl Headers.del m.headers } = r
  obtain ⟨r1, m1⟩ := r
  cases r1 with
  | error e => rfl
  | ok u => exact removeNotation_c true (txt "To") toSuffix m1 c

theorem removeSb_frame (m : Msg) :
    (removeSbHeaders true true m).2 = { m with headers := cleaned m } := by
  unfold cleaned
  rw [removeSbHeaders_run, M.bind_run]
  generalize hm0 : ({ m with headers := sbNames.foldl Headers.del m.headers } : Msg) = m0
  have h0 : { m with headers := m0.headers } = m0 := by rw [← hm0]
  have h1 := removeNotation_frame true (txt "Subject") subjectSuffix m0
  generalize removeNotation true (txt "Subject") subjectSuffix m0 = r at h1
  obtain ⟨r1, m1⟩ := r
  simp only at h1
  cases r1 with
  | error e =>
    show m1 = { m with headers := m1.headers }
    rw [h1, ← h0]
  | ok u =>
    have h2 := removeNotation_frame true (txt "To") toSuffix m1
    show (removeNotation true (txt "To") toSuffix m1).2 =
      { m with headers := (removeNotation true (txt "To") toSuffix m1).2.headers }
    rw [h2, h1, ← h0]

/-- The SpamBayes headers a message comes with are of no effect. -/
theorem removeSb_same {m : Msg} {h' : Headers} (hs : SameMail m.headers h') :
    removeSbHeaders true true { m with headers := h' } = removeSbHeaders true true m := by
  have : sbNames.foldl Headers.del h' = sbNames.foldl Headers.del m.headers := by
    rw [foldl_del_eq, foldl_del_eq]
    have := hs
    unfold SameMail at this
    simp only [decide_not] at this
    exact this.symm
  rw [removeSbHeaders_run, removeSbHeaders_run]
  simp only [this]

theorem addSb_c (F : Fmt) (prob : PyFloat) (clues : List (Word × PyFloat)) (o : Mail.Opts) (m : Msg) (c : Option Cls) :
    addSbHeaders F prob clues o { m with c := c } = addSbHeaders F prob clues o m := rfl

theorem addSb_frame (F : Fmt) (prob : PyFloat) (clues : List (Word × PyFloat)) (o : Mail.Opts) (m : Msg) :
    (addSbHeaders F prob clues o m).2 =
      { m with c := some (clsOf prob), headers := (addSbHeaders F prob clues o m).2.headers } := by
  have key : ∀ (n p : Txt) (m : Msg), (notate n p m).2 = { m with headers := (notate n p m).2.headers } := by
    intro n p m
    unfold notate
    split
    · rfl
    · split <;> rfl
  have k1 : ∀ (nt : Notate) (m : Msg),
      (addToNotation nt m).2 = { m with headers := (addToNotation nt m).2.headers } := by
    intro nt m
    unfold addToNotation
    split
    · rfl
    · split
      · exact key _ _ _
      · rfl
  have k2 : ∀ (nt : Notate) (m : Msg),
      (addSubjectNotation nt m).2 = { m with headers := (addSubjectNotation nt m).2.headers } := by
    intro nt m
    unfold addSubjectNotation
    split
    · rfl
    · split
      · exact key _ _ _
      · rfl
  obtain ⟨ext, -, h | h⟩ := addSbHeaders_shape F prob clues o m
  · obtain ⟨e, h⟩ := h
    rw [h]
  · rw [h]
    unfold addNotations
    rw [M.bind_run]
    generalize hm0 : ({ m with c := some (clsOf prob), headers := m.headers ++ ext } : Msg) = m0
    have h0 : { m with c := some (clsOf prob), headers := m0.headers } = m0 := by rw [← hm0]
    have h1 := k1 o.notateTo m0
    generalize addToNotation o.notateTo m0 = r at h1
    obtain ⟨r1, m1⟩ := r
    simp only at h1
    cases r1 with
    | error e =>
      show m1 = { m with c := some (clsOf prob), headers := m1.headers }
      rw [h1, ← h0]
    | ok u =>
      have h2 := k2 o.notateSubject m1
      show (addSubjectNotation o.notateSubject m1).2 =
        { m with c := some (clsOf prob), headers := (addSubjectNotation o.notateSubject m1).2.headers }
      rw [h2, h1, ← h0]

section
variable {σ σ' K K' : Type} [Field K] [LinearOrder K] [Field K'] [LinearOrder K']

/-- What follows the removal of the headers. -/
def finish (s : Screen K) (B : Backend σ Tok) (b : Content) (v : Visit) (it : SetIter Tok) (m1 : Msg) (c : Clf σ K) :
    Except Err Unit × Msg × Clf σ K :=
  match scoreGen s.ops B it ((b.with m1.headers).tokens s.strs s.tokens v) true c with
  | (.error e, c1) => (.error e, m1, c1)
  | (.ok (p, clues), c1) =>
    ((addSbHeaders s.fmt (s.float p) ((clues.getD []).map fun x => (evidenceWord x.1, s.float x.2)) s.marks m1).1,
      (addSbHeaders s.fmt (s.float p) ((clues.getD []).map fun x => (evidenceWord x.1, s.float x.2)) s.marks m1).2, c1)

theorem screen_run (s : Screen K) (B : Backend σ Tok) (b : Content) (v : Visit) (it : SetIter Tok) (m : Msg) (c : Clf σ K) :
    s.run B b v it (m, c) =
      match removeSbHeaders true true m with
      | (.error e, m1) => (.error e, m1, c)
      | (.ok _, m1) => finish s B b v it m1 c := rfl

/-- The classification that a message had before does not matter. -/
theorem finish_c (s : Screen K) (B : Backend σ Tok) (b : Content) (v : Visit) (it : SetIter Tok) (m1 : Msg) (c : Clf σ K)
    (k : Option Cls) :
    (finish s B b v it { m1 with c := k } c).1 = (finish s B b v it m1 c).1 ∧
    (finish s B b v it { m1 with c := k } c).2.2 = (finish s B b v it m1 c).2.2 ∧
    ({ (finish s B b v it { m1 with c := k } c).2.1 with c := none } : Msg) =
      { (finish s B b v it m1 c).2.1 with c := none } ∧
    ((finish s B b v it m1 c).1 = .ok () → finish s B b v it { m1 with c := k } c = finish s B b v it m1 c) := by
  unfold finish
  simp only
  generalize scoreGen s.ops B it ((b.with m1.headers).tokens s.strs s.tokens v) true c = r
  obtain ⟨r1, c1⟩ := r
  cases r1 with
  | error e => exact ⟨rfl, rfl, rfl, fun h => nomatch h⟩
  | ok x => exact ⟨rfl, rfl, rfl, fun _ => rfl⟩

/-- What is known when a message came through the filter. -/
theorem screen_ok {s : Screen K} {B : Backend σ Tok} {b : Content} {v : Visit} {it : SetIter Tok} {m m1 : Msg}
    {c c1 : Clf σ K} (h : s.run B b v it (m, c) = (.ok (), m1, c1)) :
    removeSbHeaders true true m = (.ok (), { m with headers := cleaned m }) ∧
    ∃ p clues, scoreGen s.ops B it ((b.with (cleaned m)).tokens s.strs s.tokens v) true c = (.ok (p, clues), c1) ∧
      addSbHeaders s.fmt (s.float p) ((clues.getD []).map fun x => (evidenceWord x.1, s.float x.2)) s.marks
        { m with headers := cleaned m } = (.ok (), m1) := by
  rw [screen_run] at h
  have hf := removeSb_frame m
  generalize hr : removeSbHeaders true true m = r at h hf
  obtain ⟨r1, m0⟩ := r
  simp only at hf
  subst hf
  cases r1 with
  | error e => cases h
  | ok u =>
    refine ⟨rfl, ?_⟩
    simp only [finish] at h
    generalize hsc : scoreGen s.ops B it ((b.with (cleaned m)).tokens s.strs s.tokens v) true c = q at h
    obtain ⟨q1, c2⟩ := q
    cases q1 with
    | error e => cases h
    | ok x =>
      obtain ⟨p, clues⟩ := x
      simp only [Prod.mk.injEq] at h
      obtain ⟨h1, h2, h3⟩ := h
      subst h3
      exact ⟨p, clues, rfl, Prod.ext h1 h2⟩

/-! ### C114 -/

/-- **C114.** SpamBayes headers that a message comes with have no effect on what the filter
does, whoever wrote them and wherever they stand: result, message and classifier are those
for the message without them. -/
theorem C114_forged (s : Screen K) (B : Backend σ Tok) (b : Content) (v : Visit) (it : SetIter Tok) (m : Msg)
    (h' : Headers) (hs : SameMail m.headers h') (c : Clf σ K) :
    s.run B b v it ({ m with headers := h' }, c) = s.run B b v it (m, c) := by
  rw [screen_run, screen_run, removeSb_same hs]

/-- **C114.** A message that went through a filter before (another filter, with its own
training, options and kind of classifier) is treated as if it had not, provided what that filter did to
To and Subject can be taken off again. -/
theorem C114_refiltered_partial (s : Screen K) (B : Backend σ Tok) (s' : Screen K') (B' : Backend σ' Tok) (b : Content)
    (v v' : Visit) (it it' : SetIter Tok) (m m1 : Msg) (c c1 : Clf σ K) (cls : Cls)
    (h : s.run B b v it (m, c) = (.ok (), m1, c1)) (hcls : m1.c = some cls)
    (hclean : CanBeCleaned s.marks cls (cleaned m)) (k : Clf σ' K') :
    let r := s'.run B' b v' it' (m, k)
    let r1 := s'.run B' b v' it' (m1, k)
    r1.1 = r.1 ∧ r1.2.2 = r.2.2 ∧ ({ r1.2.1 with c := none } : Msg) = { r.2.1 with c := none } ∧
      (r.1 = .ok () → r1 = r) := by
  obtain ⟨h1, p, clues, -, h3⟩ := screen_ok h
  have hf := addSb_frame s.fmt (s.float p) ((clues.getD []).map fun x => (evidenceWord x.1, s.float x.2)) s.marks
    { m with headers := cleaned m }
  rw [h3] at hf
  simp only at hf
  have hc : clsOf (s.float p) = cls := by
    rw [hf] at hcls
    simpa using hcls
  obtain ⟨m'', h4, h5⟩ := C39_roundtrip_partial s.fmt (s.float p) _ s.marks { m with headers := cleaned m }
    { m with headers := cleaned m, c := some cls } m1 cls (by rw [← hc]; rfl)
    (C38_removes_exactly m true true).1 hclean.1 hclean.2 h3
  have h6 := removeSb_frame m1
  have h7 : m'' = { m with headers := cleaned m, c := some cls } := by
    rw [h4] at h6
    simp only at h6
    have h8 : cleaned m1 = cleaned m := by
      rw [h6] at h5
      exact h5
    rw [h6, h8, hf, hc]
  intro r r1
  have e : r = finish s' B' b v' it' { m with headers := cleaned m } k := by
    show s'.run B' b v' it' (m, k) = _
    rw [screen_run, h1]
  have e1 : r1 = finish s' B' b v' it' { m with headers := cleaned m, c := some cls } k := by
    show s'.run B' b v' it' (m1, k) = _
    rw [screen_run, h4, h7]
  rw [e, e1]
  exact finish_c s' B' b v' it' { m with headers := cleaned m } k (some cls)

/-- helper: scoring again -/
theorem scoreGen_again {F : FloatOps K} {it : SetIter Tok} {g : Gen} {c c1 : Clf (Dict Tok WordInfo) K}
    {r : K × Option (List (EvWord Tok × K))} (hk : Coherent F c)
    (h : scoreGen F (memory Tok) it g true c = (.ok r, c1)) :
    (scoreGen F (memory Tok) it g true c1).1 = .ok r ∧ Coherent F c1 ∧ c1.store = c.store ∧ c1.nspam = c.nspam ∧
      c1.nham = c.nham ∧ c1.useBigrams = c.useBigrams := by
  unfold scoreGen at h ⊢
  cases hst : g.stop with
  | some e =>
    rw [hst] at h
    obtain ⟨⟨x, hx⟩, -⟩ := C09_raising (α := K × Option (List (EvWord Tok × K))) F c g.toks e hk
    simp only at h
    rw [h] at hx
    cases hx
  | none =>
    rw [hst] at h
    simp only at h ⊢
    obtain ⟨h1, h2, h3, h4, h5, h6⟩ := spamprob_memory c hk it (.iterator g.toks) true
    rw [h] at h1 h2 h3 h4 h5 h6
    simp only at h1 h2 h3 h4 h5 h6
    refine ⟨?_, h2, h3, h4, h5, h6⟩
    rw [(spamprob_memory c1 h2 it (.iterator g.toks) true).1, h3, h4, h5, h6, ← h1]

/-- **C114.** Filtering a message a second time changes nothing, and the filter has not
trained the classifier. -/
theorem C114_twice_partial (s : Screen K) (b : Content) (v : Visit) (it : SetIter Tok) (m m1 : Msg)
    (c c1 : Clf (Dict Tok WordInfo) K) (cls : Cls) (hk : Coherent s.ops c)
    (h : s.run (memory Tok) b v it (m, c) = (.ok (), m1, c1)) (hcls : m1.c = some cls)
    (hclean : CanBeCleaned s.marks cls (cleaned m)) :
    (∃ c2, s.run (memory Tok) b v it (m1, c1) = (.ok (), m1, c2)) ∧
      c1.store = c.store ∧ c1.nspam = c.nspam ∧ c1.nham = c.nham := by
  obtain ⟨h1, p, clues, h2, h3⟩ := screen_ok h
  obtain ⟨g1, -, g2, g3, g4, -⟩ := scoreGen_again hk h2
  refine ⟨?_, g2, g3, g4⟩
  have hr : s.run (memory Tok) b v it (m, c1) = (.ok (), m1,
      (scoreGen s.ops (memory Tok) it ((b.with (cleaned m)).tokens s.strs s.tokens v) true c1).2) := by
    rw [screen_run, h1]
    unfold finish
    simp only
    generalize scoreGen s.ops (memory Tok) it ((b.with (cleaned m)).tokens s.strs s.tokens v) true c1 = q at g1
    obtain ⟨q1, c2⟩ := q
    simp only at g1
    subst g1
    simp only [h3]
  obtain ⟨-, -, -, h5⟩ := C114_refiltered_partial s (memory Tok) s (memory Tok) b v v it it m m1 c c1 cls h hcls hclean c1
  exact ⟨_, (h5 (by rw [hr])).trans hr⟩

/-- **C114.** What the filter writes on a message is determined by the message and the
messages learned (as ham or spam).  It does not depend on the SpamBayes headers the message
has, its former classification, the order in which the messages were learned, messages learned and unlearned,
messages scored, restarts, the order in which parts are visited, and the order of sets. -/
theorem C114_determined {D : Type} (s : Screen K) (hU : LowersAscii s.strs.toStr) (hc : s.tokens.countAll = false)
    (codec : Codec D Tok) (deeds deeds' : List Deed) (L : Multiset (Envelope × Bool))
    (S S' : Option (Multiset (Envelope × Bool))) (h : Kept s.strs 0 none deeds L S) (h' : Kept s.strs 0 none deeds' L S')
    (b : Content) (m : Msg) (hd : Headers) (k : Option Cls) (hs : SameMail m.headers hd) (v v' : Visit)
    (hv : Visits s.strs (b.with (cleaned m)) v) (hv' : Visits s.strs (b.with (cleaned m)) v')
    (it it' : SetIter Tok) (m1 : Msg) :
    (∃ c, s.run (memory Tok) b v it (m, (office s.ops codec s.strs s.tokens none deeds).1) = (.ok (), m1, c)) ↔
    (∃ c, s.run (memory Tok) b v' it' ({ m with headers := hd, c := k },
        (office s.ops codec s.strs s.tokens none deeds').1) = (.ok (), m1, c)) := by
  have key : ∀ (deeds deeds' : List Deed) (S S' : Option (Multiset (Envelope × Bool))),
      Kept s.strs 0 none deeds L S → Kept s.strs 0 none deeds' L S' → ∀ (m m' : Msg) (it it' : SetIter Tok) (v v' : Visit),
      Visits s.strs (b.with (cleaned m)) v → Visits s.strs (b.with (cleaned m)) v' →
      (∃ k, removeSbHeaders true true m' =
        ((removeSbHeaders true true m).1, { (removeSbHeaders true true m).2 with c := k })) →
      (∃ c, s.run (memory Tok) b v it (m, (office s.ops codec s.strs s.tokens none deeds).1) = (.ok (), m1, c)) →
      ∃ c, s.run (memory Tok) b v' it' (m', (office s.ops codec s.strs s.tokens none deeds').1) = (.ok (), m1, c) := by
    rintro deeds deeds' S S' h h' m m' it it' v v' hv hv' ⟨k, hm⟩ ⟨c, hr⟩
    obtain ⟨h1, p, clues, h2, h3⟩ := screen_ok hr
    have h4 := (C105_score s.strs hU s.tokens hc s.ops codec deeds deeds' L S S' h h' _ _ ⟨rfl, rfl, rfl⟩ v v' hv hv'
      it it' true (p, clues)).1 (by rw [h2])
    rw [screen_run, hm, h1]
    unfold finish
    simp only
    generalize scoreGen s.ops (memory Tok) it' ((b.with (cleaned m)).tokens s.strs s.tokens v') true
      (office s.ops codec s.strs s.tokens none deeds').1 = q at h4
    obtain ⟨q1, c2⟩ := q
    simp only at h4
    subst h4
    exact ⟨c2, by simp only; rw [addSb_c s.fmt _ _ _ { m with headers := cleaned m } k, h3]⟩
  have e : removeSbHeaders true true { m with headers := hd, c := k } =
      ((removeSbHeaders true true m).1, { (removeSbHeaders true true m).2 with c := k }) := by
    have := removeSb_c { m with headers := hd } k
    rw [removeSb_same hs] at this
    exact this
  have e' : cleaned { m with headers := hd, c := k } = cleaned m := by
    unfold cleaned
    rw [e]
  refine ⟨key deeds deeds' S S' h h' m _ it it' v v' hv hv' ⟨k, e⟩, ?_⟩
  refine key deeds' deeds S' S h' h _ m it' it v' v (by rw [e']; exact hv') (by rw [e']; exact hv) ⟨m.c, ?_⟩
  rw [e]
  have := removeSb_c m m.c
  simpa using this

/-- A word of the evidence as it is printed: the indicators are the bytes `*H*` and `*S*`. -/
def spelled : EvWord Tok → Word
  | .H => .bytes (txt "*H*")
  | .S => .bytes (txt "*S*")
  | .word (.bytes b) => .bytes b
  | .word (.str t) => .str t

/-- **C114.** What the filter writes: the score is that of the cleaned message, the header
says the class of that score, and the evidence header lists the two indicators and the extreme clues
of that score, in order. -/
theorem C114_written (s : Screen K) (b : Content) (v : Visit) (it : SetIter Tok) (m m1 : Msg)
    (c c1 : Clf (Dict Tok WordInfo) K) (hk : Coherent s.ops c)
    (h : s.run (memory Tok) b v it (m, c) = (.ok (), m1, c1)) :
    ∃ p H S rest, (spamprob s.ops (memory Tok) it (.iterator ((b.with (cleaned m)).tokens s.strs s.tokens v).toks) true c).1 =
        .ok (p, some ((.H, H) :: (.S, S) :: rest)) ∧
      ((b.with (cleaned m)).tokens s.strs s.tokens v).stop = none ∧
      (∀ m0 cls, setClassification (.float (s.float p)) m = (.ok cls, m0) →
        m1.c = some cls ∧ m1.headers.get (txt "X-Spambayes-Classification") = .str cls.name) ∧
      (s.marks.includeEvidence = true → Printable s.fmt →
        ∃ eH eS entries text, m1.headers.get (txt "X-Spambayes-Evidence") = .str text ∧
          unfoldLines text = joinWith (txt "; ") (eH :: eS :: entries) ∧
          EntryOf s.fmt (.bytes (txt "*H*"), s.float H) eH ∧ EntryOf s.fmt (.bytes (txt "*S*"), s.float S) eS ∧
          List.Forall₂ (EntryOf s.fmt)
            ((rest.map fun x => (spelled x.1, s.float x.2)).filter (fun x => Extreme s.fmt s.marks.clueCutoff x)) entries) := by
  obtain ⟨h1, p, clues, h2, h3⟩ := screen_ok h
  have hno : ∀ n ∈ sbHeaderNames, ∀ e ∈ cleaned m, ¬ Named n e := fun n hn e he hne =>
    (C38_removes_exactly m true true).1 e he ⟨n, hn, hne⟩
  unfold scoreGen at h2
  cases hst : ((b.with (cleaned m)).tokens s.strs s.tokens v).stop with
  | some e =>
    rw [hst] at h2
    obtain ⟨⟨x, hx⟩, -⟩ := C09_raising (α := K × Option (List (EvWord Tok × K))) s.ops c
      ((b.with (cleaned m)).tokens s.strs s.tokens v).toks e hk
    simp only at h2
    rw [h2] at hx
    cases hx
  | none =>
    rw [hst] at h2
    simp only at h2
    have h4 : (spamprob s.ops (memory Tok) it (.iterator ((b.with (cleaned m)).tokens s.strs s.tokens v).toks) true c).1 =
        .ok (p, clues) := by rw [h2]
    have h5 := h4
    rw [spamprob_eq s.ops hk] at h5
    obtain ⟨cl, S, H, -, -, h8⟩ := pureSpamprob_ok h5
    simp only [if_true] at h8
    refine ⟨p, H, S, _, by rw [h4, h8]; rfl, rfl, ?_, ?_⟩
    · intro m0 cls hcls
      have hcls' : setClassification (.float (s.float p)) { m with headers := cleaned m } =
          (.ok cls, { m0 with headers := cleaned m }) := by
        simp only [setClassification, Prod.mk.injEq, Except.ok.injEq] at hcls ⊢
        obtain ⟨hcls, hm0⟩ := hcls
        exact ⟨hcls, by rw [← hm0]⟩
      have := C37_trustworthy_partial s.fmt (s.float p) ((clues.getD []).map fun x => (evidenceWord x.1, s.float x.2)) s.marks
        { m with headers := cleaned m } _ cls hcls' (hno _ (by decide))
      rw [h3] at this
      exact ⟨this.2, this.1⟩
    · intro ho hF
      obtain ⟨entries, text, g1, g2, g3⟩ := C41_evidence s.fmt hF (s.float p) _ s.marks { m with headers := cleaned m } m1 ho
        (hno _ (by decide)) h3
      have e : (clues.getD []).map (fun x => (evidenceWord x.1, s.float x.2)) =
          (.bytes (txt "*H*"), s.float H) :: (.bytes (txt "*S*"), s.float S) ::
            ((cl.map (fun c => (EvWord.word c.word, c.prob))).mergeSort (fun a b => decide (a.2 ≤ b.2))).map
              (fun x => (spelled x.1, s.float x.2)) := by
        rw [h8]
        simp only [Option.getD_some, evidenceList, List.map_cons, evidenceWord]
        congr 2
        refine List.map_congr_left ?_
        rintro ⟨w, q⟩ -
        cases w with
        | S => rfl
        | H => rfl
        | word w => cases w <;> rfl
      rw [e, List.filter_cons_of_pos (by simp [Extreme]), List.filter_cons_of_pos (by simp [Extreme])] at g3
      cases g3 with
      | cons a g3 =>
        cases g3 with
        | cons a' g3 => exact ⟨_, _, _, text, g1, g2, a, a', g3⟩

end

/-! ### Where it fails -/

/-- Filtering a message a second time changes nothing. -/
def C114Claim : Prop :=
  ∀ (s : Screen ℝ) (b : Content) (v : Visit) (it : SetIter Tok) (m m1 : Msg) (c c1 : Clf (Dict Tok WordInfo) ℝ),
    s.ops.Sound → (∀ q : ℚ, s.float q = .fin q) → Coherent s.ops c →
    Visits s.strs (b.with (cleaned m)) v → Visits s.strs (b.with (cleaned m1)) v →
    s.run (memory Tok) b v it (m, c) = (.ok (), m1, c1) →
    ∃ c2, s.run (memory Tok) b v it (m1, c1) = (.ok (), m1, c2)

open Classical in
/-- Real numbers as floats. -/
noncomputable def asFloat (r : ℝ) : PyFloat := if h : ∃ q : ℚ, (q : ℝ) = r then .fin h.choose else .nan

theorem asFloat_rat (q : ℚ) : asFloat q = .fin q := by
  have h : ∃ p : ℚ, (p : ℝ) = q := ⟨q, rfl⟩
  unfold asFloat
  rw [dif_pos h]
  have : h.choose = q := by exact_mod_cast h.choose_spec
  rw [this]

/-- A filter that nobody trained. -/
noncomputable def noviceFilter (marks : Mail.Opts) : Screen ℝ :=
  ⟨exactReal, asFloat, plainFmt, asciiMore, .default, marks⟩

/-- The classifier of that filter. -/
noncomputable def novice : Clf (Dict Tok WordInfo) ℝ := Clf.new false Dict.empty

/-- It is unsure of every message. -/
theorem novice_unsure {g : Gen} (hg : g.stop = none) (it : SetIter Tok) {c : Clf (Dict Tok WordInfo) ℝ}
    (hk : Coherent exactReal c) (h1 : c.store = Dict.empty) (h2 : c.nspam = 0) (h3 : c.nham = 0)
    (h4 : c.useBigrams = some false) :
    ∃ o, (scoreGen exactReal (memory Tok) it g true c).1 = .ok (1 / 2, o) := by
  unfold scoreGen
  rw [hg]
  simp only
  rw [(spamprob_memory c hk it _ true).1, h1, h2, h3, h4]
  have e := (spamprob_memory (F := exactReal) novice (coherent_of_empty _ _ rfl) it (.iterator g.toks) true).1
  obtain ⟨o, ho⟩ := C15_no_evidence exactReal exactReal_sound (by simp [exactReal]) ([] : List (Call Tok)) it
    (.iterator g.toks) true (fun w _ => ⟨_, rfl, by
      show strength exactReal (1 / 2) < 1 / 10
      norm_num [strength, exactReal]⟩)
  refine ⟨o, ?_⟩
  rw [← ho]
  exact e.symm

theorem half_unsure : clsOf (asFloat (1 / 2)) = .unsure := by
  have : asFloat (1 / 2) = .fin (1 / 2) := by
    have := asFloat_rat (1 / 2)
    push_cast at this
    exact this
  rw [this]
  norm_num [clsOf, PyFloat.lt, hamCutoff, spamCutoff]

/-- The order in which the parts of the letter are visited. -/
def letterVisit : Visit := ⟨[], [textual "red green", textual "blue pink"]⟩

/-- One run of the filter on the letter with these headers. -/
theorem novice_run (marks : Mail.Opts) (hm : marks.includeScore = false ∧ marks.includeThermostat = false ∧
      marks.includeEvidence = false) (m m0 : Msg) (c : Clf (Dict Tok WordInfo) ℝ)
    (hk : Coherent exactReal c) (h1 : c.store = Dict.empty) (h2 : c.nspam = 0) (h3 : c.nham = 0)
    (h4 : c.useBigrams = some false) (hr : removeSbHeaders true true m = (.ok (), m0))
    (hg : ((Content.mk plainLib letter.parts).with m0.headers |>.tokens asciiMore .default letterVisit).stop = none) :
    ∃ c1, (noviceFilter marks).run (memory Tok) ⟨plainLib, letter.parts⟩ letterVisit .dedup (m, c) =
        (((do addHeader classificationName (.str (txt "unsure")); addId marks
              addNotations marks.notateTo marks.notateSubject : M Msg Unit) { m0 with c := some .unsure }).1,
          ((do addHeader classificationName (.str (txt "unsure")); addId marks
               addNotations marks.notateTo marks.notateSubject : M Msg Unit) { m0 with c := some .unsure }).2, c1) ∧
      Coherent exactReal c1 ∧ c1.store = Dict.empty ∧ c1.nspam = 0 ∧ c1.nham = 0 ∧ c1.useBigrams = some false := by
  obtain ⟨o, ho⟩ := novice_unsure hg .dedup hk h1 h2 h3 h4
  rw [screen_run, hr]
  unfold finish
  simp only [noviceFilter]
  generalize hq : scoreGen exactReal (memory Tok) .dedup
    ((Content.mk plainLib letter.parts).with m0.headers |>.tokens asciiMore .default letterVisit) true c = q at ho
  obtain ⟨q1, c1⟩ := q
  simp only at ho
  subst ho
  obtain ⟨-, k0, k1, k2, k3, k4⟩ := scoreGen_again hk hq
  refine ⟨c1, ?_, k0, k1.trans h1, k2.trans h2, k3.trans h3, k4.trans h4⟩
  simp only [addSb_run, half_unsure, addScore, addLevel, addEvidence, hm]
  rfl

/-- The letter as a message. -/
def letterMsg : Msg := { Msg.new with headers := letter.headers }

/-- The letter after the filter. -/
def letterMarked : Msg :=
  ⟨[(txt "Content-Type", .str (txt "multipart/mixed")), (txt "X-Spambayes-Classification", .str (txt "unsure")),
    (txt "X-Spambayes-MailId", .none), (txt "To", .str (txt "unsure@spambayes.invalid"))], none, some .unsure, none⟩

/-- **C114 is false**: a notation in a To header that the filter had to create is not taken
off again, and the second time the filter adds another. -/
theorem C114_claim_false : ¬ C114Claim := by
  intro h
  obtain ⟨c1, h1, k0, k1, k2, k3, k4⟩ := novice_run { notateTo := .seq [.inl .unsure] } ⟨rfl, rfl, rfl⟩ letterMsg letterMsg
    novice (coherent_of_empty _ _ rfl) rfl rfl rfl rfl (by rfl) (by decide)
  obtain ⟨c2, h2, -⟩ := novice_run { notateTo := .seq [.inl .unsure] } ⟨rfl, rfl, rfl⟩ letterMarked
    { letterMarked with headers := letter.headers ++ [(txt "To", .str (txt "unsure@spambayes.invalid"))] }
    c1 k0 k1 k2 k3 k4 (by rfl) (by decide)
  obtain ⟨c3, h3⟩ := h (noviceFilter { notateTo := .seq [.inl .unsure] }) ⟨plainLib, letter.parts⟩ letterVisit .dedup
    letterMsg letterMarked novice c1 exactReal_sound asFloat_rat (coherent_of_empty _ _ rfl) letter_visits.1 letter_visits.1 h1
  rw [h2] at h3
  injection h3 with _ h4
  injection h4 with h4 _
  have h5 := congrArg Msg.headers h4
  revert h5
  decide

/-! ### Examples -/

/-- The letter can be cleaned when nothing is noted in To, or it has one. -/
example : cleaned letterMarked = letter.headers ++ [(txt "To", .str (txt "unsure@spambayes.invalid"))] ∧
    CanBeCleaned {} .unsure (cleaned letterMsg) := by
  refine ⟨by decide, ⟨fun h => h.elim, fun _ => .inl (by decide)⟩, fun h => h.elim, fun _ => .inl (by decide)⟩

example : CanBeCleaned { notateTo := .seq [.inl .spam] } .spam [(txt "To", .str (txt "me@home"))] :=
  ⟨⟨fun _ => ⟨txt "me@home", by decide⟩, fun h => (h (by simp [WantsNotation])).elim⟩,
    fun h => h.elim, fun _ => .inl (by decide)⟩

/-- A run of the filter that meets the hypotheses. -/
example : ∃ m1 c1, (noviceFilter {}).run (memory Tok) ⟨plainLib, letter.parts⟩ letterVisit .dedup (letterMsg, novice) =
    (.ok (), m1, c1) ∧ m1.c = some .unsure ∧ CanBeCleaned (noviceFilter {}).marks .unsure (cleaned letterMsg) := by
  obtain ⟨c1, h1, -⟩ := novice_run {} ⟨rfl, rfl, rfl⟩ letterMsg letterMsg novice (coherent_of_empty _ _ rfl) rfl rfl rfl rfl
    (by rfl) (by decide)
  exact ⟨_, c1, h1, rfl, ⟨fun h => h.elim, fun _ => .inl (by decide)⟩, fun h => h.elim, fun _ => .inl (by decide)⟩

/-- A forged header. -/
example : SameMail letter.headers ((txt "X-SPAMBAYES-CLASSIFICATION", .str (txt "ham")) :: letter.headers) := by
  unfold SameMail; decide

end Sb.Props
