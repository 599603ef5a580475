import Verif.Model.Desk
import Verif.Props.OwnHeaders
import Verif.Props.Scoring
import Verif.Props.Trainer

/-
Property C102: training and scoring with messages.
-/

set_option linter.unusedSectionVars false
namespace Sb.Props
open Sb Sb.Mail Sb.Tokenize Sb.Strip Py Py.Text Spec
open Sb.Corpora (learnRaising unlearnRaising)

/-! ### The words of the statements -/

/-- The parts are visited in some order, none twice and none left out. -/
def Visits (U : StrMore) (e : Envelope) (v : Visit) : Prop :=
  v.texts.Perm (Mime.textparts U.toStr e.root) ∧ v.octets.Perm (Mime.octetparts U.toStr e.root)

/-- The same message, perhaps with other SpamBayes headers. -/
def SameLetter (e e' : Envelope) : Prop :=
  e'.lib = e.lib ∧ e'.parts = e.parts ∧ SameMail e.headers e'.headers

/-- The message can be tokenized and has this token. -/
def Has (U : StrMore) (o : Tokenize.Opts) (e : Envelope) (w : Tok) : Prop :=
  ∃ v, Visits U e v ∧ (e.tokens U o v).stop = none ∧ w ∈ (e.tokens U o v).toks

/-- `Filed U L steps L'`: the messages learned are `L` before the steps and `L'` after
them.  Every message unlearned had been learned as the same kind, perhaps with other
SpamBayes headers and with its parts visited in another order. -/
inductive Filed (U : StrMore) : Multiset (Envelope × Bool) → List Step → Multiset (Envelope × Bool) → Prop
  | nil (L) : Filed U L [] L
  | learn {L L' e v it b r} : Visits U e v → Filed U ((e, b) ::ₘ L) r L' → Filed U L (.learn e v it b :: r) L'
  | unlearn {L L' e e' v it b r} : SameLetter e e' → Visits U e' v → Filed U L r L' →
      Filed U ((e, b) ::ₘ L) (.unlearn e' v it b :: r) L'
  | score {L L' e v it ev r} : Filed U L r L' → Filed U L (.score e v it ev :: r) L'

/-! ### The order of the parts -/

theorem tokens_order {U : StrMore} {o : Tokenize.Opts} {e : Envelope} {v v' : Visit} (hv : Visits U e v)
    (hv' : Visits U e v') (hs : (e.tokens U o v).stop = none) :
    (e.tokens U o v').stop = none ∧ ∀ w, w ∈ (e.tokens U o v').toks ↔ w ∈ (e.tokens U o v).toks := by
  have hstop : (e.tokens U o v').stop = none := by
    unfold Envelope.tokens Mime.callMessage callWith at hs ⊢
    rw [convert_stop] at hs ⊢
    obtain ⟨h1, h2⟩ := hs
    rw [andThen_stop_none] at h1
    obtain ⟨h3, h4⟩ := h1
    rw [andThen_toks h3] at h2
    have ht : ∀ p, p ∈ v'.texts.map Mime.payloadOf → p ∈ v.texts.map Mime.payloadOf := fun p =>
      ((hv'.1.trans hv.1.symm).map _).mem_iff.1
    have ho : ∀ p, p ∈ v'.octets.map Mime.blobOf → p ∈ v.octets.map Mime.blobOf := fun p =>
      ((hv'.2.trans hv.2.symm).map _).mem_iff.1
    have w : ∀ b g, (Gen.when b g).toks = if b then g.toks else [] := by
      intro b g
      cases b <;> rfl
    have hbody : (tokenizeBodyWith U o (v'.octets.map Mime.blobOf)
        ((Mime.imageparts U.toStr e.root).map Mime.blobOf) (v'.texts.map Mime.payloadOf)).stop = none ∧
        ∀ k ∈ (tokenizeBodyWith U o (v'.octets.map Mime.blobOf)
        ((Mime.imageparts U.toStr e.root).map Mime.blobOf) (v'.texts.map Mime.payloadOf)).toks,
        k ∈ (tokenizeBodyWith U o (v.octets.map Mime.blobOf)
        ((Mime.imageparts U.toStr e.root).map Mime.blobOf) (v.texts.map Mime.payloadOf)).toks := by
      unfold tokenizeBodyWith at h4 ⊢
      simp only [andThen_stop_none] at h4 ⊢
      obtain ⟨i1, i2, i3, i4⟩ := h4
      have i1' : (Gen.when o.octets (.yield ((v'.octets.map Mime.blobOf).flatMap octetTokens))).stop = none := by
        rw [when_stop]; exact fun _ => rfl
      rw [each_stop_none] at i4 ⊢
      have i4' : ∀ x ∈ v'.texts.map Mime.payloadOf, (textPartWith U o x).stop = none := fun x hx => i4 x (ht x hx)
      refine ⟨⟨i1', i2, i3, i4'⟩, ?_⟩
      rw [andThen_toks i1, andThen_toks i1', andThen_toks i2, andThen_toks i2, andThen_toks i3,
        andThen_toks i3, each_ok (f := textPartWith U o) i4, each_ok (f := textPartWith U o) i4']
      simp only [w]
      intro k hk
      simp only [List.mem_append] at hk ⊢
      rcases hk with hk | hk | hk | hk
      · left
        cases hb : o.octets with
        | false => rw [hb] at hk; simp at hk
        | true =>
          rw [hb] at hk
          simp only [if_true, Gen.yield, List.mem_flatMap] at hk ⊢
          obtain ⟨x, hx, hk⟩ := hk
          exact ⟨x, ho x hx, hk⟩
      · exact .inr (.inl hk)
      · exact .inr (.inr (.inl hk))
      · refine .inr (.inr (.inr ?_))
        simp only [List.mem_flatMap] at hk ⊢
        obtain ⟨x, hx, hk⟩ := hk
        exact ⟨x, ht x hx, hk⟩
    refine ⟨andThen_stop_none.2 ⟨h3, hbody.1⟩, ?_⟩
    rw [andThen_toks h3]
    intro k hk
    refine h2 k ?_
    rw [List.mem_append] at hk ⊢
    exact hk.imp id (hbody.2 k)
  refine ⟨hstop, fun w => ?_⟩
  have h1 := C99_with_options U o (headerView e.lib e.headers) (moreView e.lib e.headers) e.root
    v.octets v.texts hv.1 hv.2 hs w
  have h2 := C99_with_options U o (headerView e.lib e.headers) (moreView e.lib e.headers) e.root
    v'.octets v'.texts hv'.1 hv'.2 hstop w
  exact h2.trans h1.symm

theorem tokens_same {U : StrMore} (hU : LowersAscii U.toStr) {o : Tokenize.Opts} (hc : o.countAll = false)
    {e e' : Envelope} (h : SameLetter e e') (v : Visit) : e'.tokens U o v = e.tokens U o v := by
  obtain ⟨l, hd, p⟩ := e
  obtain ⟨l', hd', p'⟩ := e'
  obtain ⟨rfl, rfl, h3⟩ := h
  exact (C101_own_headers_partial U hU o hc _ hd hd' h3 _ v.octets v.texts).2

theorem visits_same {U : StrMore} {e e' : Envelope} (h : SameLetter e e') {v : Visit} :
    Visits U e' v ↔ Visits U e v := by
  obtain ⟨l, hd, p⟩ := e
  obtain ⟨l', hd', p'⟩ := e'
  obtain ⟨rfl, rfl, h3⟩ := h
  unfold Visits Envelope.root
  simp only [root_same _ h3]

/-! ### The words of a message -/

open Classical in
/-- The tokens of a message; none if it cannot be tokenized. -/
noncomputable def wordSet (U : StrMore) (o : Tokenize.Opts) (e : Envelope) : Finset Tok :=
  if h : ∃ v, Visits U e v ∧ (e.tokens U o v).stop = none then (e.tokens U o h.choose).toks.toFinset else ∅

theorem mem_wordSet {U : StrMore} {o : Tokenize.Opts} {e : Envelope} {w : Tok} :
    w ∈ wordSet U o e ↔ Has U o e w := by
  unfold wordSet
  split
  · rename_i h
    obtain ⟨h1, h2⟩ := h.choose_spec
    rw [List.mem_toFinset]
    constructor
    · intro hw
      exact ⟨_, h1, h2, hw⟩
    · rintro ⟨v, h3, h4, h5⟩
      exact ((tokens_order h3 h1 h4).2 w).2 h5
  · rename_i h
    constructor
    · intro hw; simp at hw
    · rintro ⟨v, h3, h4, h5⟩
      exact absurd ⟨v, h3, h4⟩ h

theorem toFinset_tokens {U : StrMore} {o : Tokenize.Opts} {e : Envelope} {v : Visit} (hv : Visits U e v)
    (hs : (e.tokens U o v).stop = none) : (e.tokens U o v).toks.toFinset = wordSet U o e := by
  ext w
  rw [mem_wordSet, List.mem_toFinset]
  constructor
  · intro hw; exact ⟨v, hv, hs, hw⟩
  · rintro ⟨v', h3, h4, h5⟩
    exact ((tokens_order h3 hv h4).2 w).2 h5

theorem wordSet_broken {U : StrMore} {o : Tokenize.Opts} {e : Envelope} {v : Visit} (hv : Visits U e v)
    (hs : (e.tokens U o v).stop ≠ none) : wordSet U o e = ∅ := by
  unfold wordSet
  rw [dif_neg]
  rintro ⟨v', h1, h2⟩
  exact hs (tokens_order h1 hv h2).1

/-- The entry of a message in the ledger. -/
noncomputable def entry (U : StrMore) (o : Tokenize.Opts) (p : Envelope × Bool) : Spec.Msg Tok :=
  (wordSet U o p.1, p.2)

variable {K : Type} [Field K] [LinearOrder K]

theorem order_nil (it : SetIter Tok) : it.order [] = [] := by
  rw [List.eq_nil_iff_forall_not_mem]
  intro w hw
  rw [it.mem] at hw
  cases hw

theorem afterAdd_nil (it : SetIter Tok) (b : Bool) (c : Clf (Dict Tok WordInfo) K) :
    afterAdd it [] b c = { c with probcache := Dict.empty
                                  nspam := c.nspam + (if b then 1 else 0)
                                  nham := c.nham + (if b then 0 else 1) } := by
  unfold afterAdd addAll
  rw [order_nil]
  cases b <;> simp

theorem afterRemove_nil (it : SetIter Tok) (b : Bool) (c : Clf (Dict Tok WordInfo) K) :
    afterRemove it [] b c = { c with probcache := Dict.empty
                                     nspam := c.nspam - (if b then 1 else 0)
                                     nham := c.nham - (if b then 0 else 1) } := by
  unfold afterRemove removeAll
  rw [order_nil]
  cases b <;> simp

theorem learnGen_ledger {U : StrMore} {o : Tokenize.Opts} {e : Envelope} {v : Visit} (hv : Visits U e v)
    (F : FloatOps K) {L : Ledger Tok} {c : Clf (Dict Tok WordInfo) K} (hr : Represents L false c)
    (it : SetIter Tok) (b : Bool) :
    (learnGen (memory Tok) it (e.tokens U o v) b c).1 =
        (match (e.tokens U o v).stop with | none => .ok () | some x => .error x) ∧
      Represents (entry U o (e, b) ::ₘ L) false (learnGen (memory Tok) it (e.tokens U o v) b c).2 ∧
      Coherent F (learnGen (memory Tok) it (e.tokens U o v) b c).2 := by
  unfold learnGen entry
  cases hs : (e.tokens U o v).stop with
  | none =>
    simp only
    rw [learn_memory it _ b c hr.ub, ← toFinset_tokens hv hs]
    exact ⟨rfl, represents_afterAdd hr it _ b, coherent_of_empty F _ rfl⟩
  | some x =>
    simp only
    rw [wordSet_broken hv (by rw [hs]; simp)]
    rw [C70_learn c false hr.ub x b, ← afterAdd_nil it b c]
    exact ⟨rfl, represents_afterAdd hr it [] b, coherent_of_empty F _ rfl⟩

theorem unlearnGen_ledger {U : StrMore} {o : Tokenize.Opts} {e : Envelope} {v : Visit} (hv : Visits U e v)
    (F : FloatOps K) {L : Ledger Tok} {b : Bool} {c : Clf (Dict Tok WordInfo) K}
    (hr : Represents (entry U o (e, b) ::ₘ L) false c) (it : SetIter Tok) :
    (unlearnGen (memory Tok) it (e.tokens U o v) b c).1 =
        (match (e.tokens U o v).stop with | none => .ok () | some x => .error x) ∧
      Represents L false (unlearnGen (memory Tok) it (e.tokens U o v) b c).2 ∧
      Coherent F (unlearnGen (memory Tok) it (e.tokens U o v) b c).2 := by
  unfold unlearnGen
  unfold entry at hr
  cases hs : (e.tokens U o v).stop with
  | none =>
    simp only
    rw [← toFinset_tokens hv hs] at hr
    rw [unlearn_memory it _ b c hr.ub, if_neg (total_pos hr)]
    exact ⟨rfl, represents_afterRemove _ b hr it, coherent_of_empty F _ rfl⟩
  | some x =>
    simp only
    rw [wordSet_broken hv (by rw [hs]; simp)] at hr
    have hr' : Represents ((([] : List Tok).toFinset, b) ::ₘ L) false c := hr
    have hp := total_pos hr'
    rw [C70_unlearn c false hr.ub x b, if_neg (by cases b <;> exact hp), ← afterRemove_nil it b c]
    exact ⟨rfl, represents_afterRemove _ b hr' it, coherent_of_empty F _ rfl⟩

theorem entry_same {U : StrMore} (hU : LowersAscii U.toStr) {o : Tokenize.Opts} (hc : o.countAll = false)
    {e e' : Envelope} (h : SameLetter e e') (b : Bool) : entry U o (e', b) = entry U o (e, b) := by
  unfold entry
  congr 1
  ext w
  rw [mem_wordSet, mem_wordSet]
  unfold Has
  simp only [tokens_same hU hc h, visits_same h]

/-- helper -/
theorem scoreRaising_plain {W α : Type} [DecidableEq W] [BigramFormat W] {σ : Type} (F : FloatOps K)
    (B : Backend σ W) (ws : List W) (e : Err) {c : Clf σ K} (h : c.useBigrams = some false) :
    (scoreRaising F B ws e : M (Clf σ K) α) c = (.error e, c) := by
  unfold scoreRaising
  rw [M.bind_run]
  simp only [M.get, h]
  rfl

/-- helper -/
theorem scoreRaising_frame {W α : Type} [LinearOrder W] [BigramFormat W] (F : FloatOps K)
    (c : Clf (Dict W WordInfo) K) (ws : List W) (e : Err) (hc : Coherent F c) :
    let r := (scoreRaising F (memory W) ws e : M (Clf (Dict W WordInfo) K) α) c
    (∃ x, r.1 = .error x) ∧ r.2.store = c.store ∧ r.2.nspam = c.nspam ∧ r.2.nham = c.nham ∧
      r.2.useBigrams = c.useBigrams ∧ Coherent F r.2 := by
  intro r
  have hr : r = scoreRaising F (memory W) ws e c := rfl
  unfold scoreRaising at hr
  rw [M.bind_run] at hr
  simp only [M.get] at hr
  cases hu : c.useBigrams with
  | none => rw [hu] at hr; rw [hr]; exact ⟨⟨_, rfl⟩, rfl, rfl, rfl, hu, hc⟩
  | some ub =>
    rw [hu] at hr
    cases ub with
    | false => rw [hr]; exact ⟨⟨e, rfl⟩, rfl, rfl, rfl, hu, hc⟩
    | true =>
      simp only at hr
      rw [M.bind_run] at hr
      obtain ⟨-, h2⟩ := computes_fillRaw (F := F) (ub := c.useBigrams) (nspam := c.nspam) (nham := c.nham)
        (reads_memory c.store) ws 0 none [] [] (pAdj_true _ _) c ⟨hc, rfl, rfl, rfl, rfl⟩
      rcases hf : fillRaw F (memory W) 0 none ws [] [] c with ⟨x, c'⟩
      rw [hf] at hr h2
      have hr2 : r.2 = c' ∧ ∃ x, r.1 = .error x := by
        cases x <;> (rw [hr]; exact ⟨rfl, _, rfl⟩)
      rw [hr2.1]
      exact ⟨hr2.2, h2.inv, h2.nspam, h2.nham, by rw [h2.ub, hu], h2.coherent⟩

/-- **C09.** Scoring a wordstream that raises while it is read leaves the records, the totals
and the mode alone; the probability cache may have grown, but every later score is the
same. -/
theorem C09_raising {W α : Type} [LinearOrder W] [BigramFormat W] (F : FloatOps K)
    (c : Clf (Dict W WordInfo) K) (ws : List W) (e : Err) (hc : Coherent F c) :
    let r := (scoreRaising F (memory W) ws e : M (Clf (Dict W WordInfo) K) α) c
    (∃ x, r.1 = .error x) ∧ r.2.store = c.store ∧ r.2.nspam = c.nspam ∧ r.2.nham = c.nham ∧
      r.2.useBigrams = c.useBigrams ∧
      ∀ it s ev, (spamprob F (memory W) it s ev r.2).1 = (spamprob F (memory W) it s ev c).1 := by
  intro r
  obtain ⟨h0, h1, h2, h3, h4, h5⟩ := scoreRaising_frame (α := α) F c ws e hc
  refine ⟨h0, h1, h2, h3, h4, fun it s ev => ?_⟩
  rw [(spamprob_memory r.2 h5 it s ev).1, (spamprob_memory c hc it s ev).1, h1, h2, h3, h4]

theorem desk_ledger {U : StrMore} (hU : LowersAscii U.toStr) {o : Tokenize.Opts} (hc : o.countAll = false)
    (F : FloatOps K) {L L' : Multiset (Envelope × Bool)} {steps : List Step} (h : Filed U L steps L') :
    ∀ c : Clf (Dict Tok WordInfo) K, Represents (L.map (entry U o)) false c → Coherent F c →
      Represents (L'.map (entry U o)) false (desk F (memory Tok) U o c steps) ∧
      Coherent F (desk F (memory Tok) U o c steps) := by
  induction h with
  | nil L => intro c h1 h2; exact ⟨h1, h2⟩
  | @learn L L' e v it b r hv _ ih =>
    intro c h1 h2
    obtain ⟨-, h3, h4⟩ := learnGen_ledger (o := o) hv F h1 it b
    rw [← Multiset.map_cons (entry U o)] at h3
    exact ih _ h3 h4
  | @unlearn L L' e e' v it b r hs hv _ ih =>
    intro c h1 h2
    rw [Multiset.map_cons, ← entry_same hU hc hs b] at h1
    obtain ⟨-, h3, h4⟩ := unlearnGen_ledger hv F h1 it
    exact ih _ h3 h4
  | @score L L' e v it ev r _ ih =>
    intro c h1 h2
    have : Represents (L.map (entry U o)) false (Step.run F (memory Tok) U o c (.score e v it ev)) ∧
        Coherent F (Step.run F (memory Tok) U o c (.score e v it ev)) := by
      show Represents _ false (scoreGen F (memory Tok) it (e.tokens U o v) ev c).2 ∧
        Coherent F (scoreGen F (memory Tok) it (e.tokens U o v) ev c).2
      unfold scoreGen
      cases (e.tokens U o v).stop with
      | some x => simp only [scoreRaising_plain F _ _ x h1.ub]; exact ⟨h1, h2⟩
      | none =>
        obtain ⟨-, i2, i3, i4, i5, i6⟩ := spamprob_memory (F := F) c h2 it (.iterator (e.tokens U o v).toks) ev
        refine ⟨⟨?_, ?_, ?_, ?_⟩, i2⟩
        · show (spamprob F (memory Tok) it _ ev c).2.useBigrams = _
          rw [i6, h1.ub]
        · show (spamprob F (memory Tok) it _ ev c).2.nspam = _
          rw [i4, h1.nspam]
        · show (spamprob F (memory Tok) it _ ev c).2.nham = _
          rw [i5, h1.nham]
        · show ∀ w, (spamprob F (memory Tok) it _ ev c).2.store.get? w = _
          rw [i3]; exact h1.info
    exact ih _ this.1 this.2

/-! ### C102 -/

open Classical in
/-- **C102.** After any session, totals and word counts are those of the messages now
learned: a message that can be tokenized counts for each of its tokens, whatever the
order in which its parts were visited and whatever SpamBayes headers it had. -/
theorem C102_counts_partial (U : StrMore) (hU : LowersAscii U.toStr) (o : Tokenize.Opts) (hc : o.countAll = false)
    (F : FloatOps K) (steps : List Step) (L : Multiset (Envelope × Bool)) (h : Filed U 0 steps L) :
    let c := desk F (memory Tok) U o (Clf.new false Dict.empty) steps
    let spam := fun w => L.countP (fun p => p.2 = true ∧ Has U o p.1 w)
    let ham := fun w => L.countP (fun p => p.2 = false ∧ Has U o p.1 w)
    c.nspam = L.countP (fun p => p.2 = true) ∧ c.nham = L.countP (fun p => p.2 = false) ∧
    ∀ w, c.store.get? w = if spam w = 0 ∧ ham w = 0 then none else some ⟨spam w, ham w⟩ := by
  obtain ⟨h1, -⟩ := desk_ledger hU hc F h (Clf.new false Dict.empty) (represents_new false)
    (coherent_of_empty F _ rfl)
  have hm : ∀ (q : Spec.Msg Tok → Prop) (r : Envelope × Bool → Prop) [DecidablePred q] [DecidablePred r],
      (∀ p, q (entry U o p) ↔ r p) → (L.map (entry U o)).countP q = L.countP r := by
    intro q r _ _ hqr
    rw [Multiset.countP_map]
    rw [Multiset.countP_eq_card_filter]
    congr 1
    refine Multiset.filter_congr fun p _ => ?_
    exact hqr p
  refine ⟨?_, ?_, ?_⟩
  · rw [h1.nspam]
    unfold spamTotal
    rw [hm _ (fun p => p.2 = true) (fun p => Iff.rfl)]
  · rw [h1.nham]
    unfold hamTotal
    rw [hm _ (fun p => p.2 = false) (fun p => Iff.rfl)]
  · intro w
    have hs : spamCount (L.map (entry U o)) w = L.countP (fun p => p.2 = true ∧ Has U o p.1 w) :=
      hm (fun m => m.2 = true ∧ w ∈ m.1) _ (fun p => and_congr_right fun _ => mem_wordSet)
    have hh : hamCount (L.map (entry U o)) w = L.countP (fun p => p.2 = false ∧ Has U o p.1 w) :=
      hm (fun m => m.2 = false ∧ w ∈ m.1) _ (fun p => and_congr_right fun _ => mem_wordSet)
    rw [h1.info w]
    unfold recordOf
    rw [hs, hh]

/-- **C102.** The score of a message depends only on the messages learned: not on the
order in which they came, nor on the order of parts, nor on SpamBayes headers. -/
theorem C102_score_partial (U : StrMore) (hU : LowersAscii U.toStr) (o : Tokenize.Opts) (hc : o.countAll = false)
    (F : FloatOps K) (steps steps' : List Step) (L : Multiset (Envelope × Bool)) (h : Filed U 0 steps L)
    (h' : Filed U 0 steps' L) (e e' : Envelope) (hs : SameLetter e e') (v v' : Visit) (hv : Visits U e v)
    (hv' : Visits U e' v') (it it' : SetIter Tok) (ev : Bool) (r : K × Option (List (EvWord Tok × K))) :
    (scoreGen F (memory Tok) it (e.tokens U o v) ev
      (desk F (memory Tok) U o (Clf.new false Dict.empty) steps)).1 = .ok r ↔
    (scoreGen F (memory Tok) it' (e'.tokens U o v') ev
      (desk F (memory Tok) U o (Clf.new false Dict.empty) steps')).1 = .ok r := by
  obtain ⟨r1, k1⟩ := desk_ledger hU hc F h (Clf.new false Dict.empty) (represents_new false)
    (coherent_of_empty F _ rfl)
  obtain ⟨r2, k2⟩ := desk_ledger hU hc F h' (Clf.new false Dict.empty) (represents_new false)
    (coherent_of_empty F _ rfl)
  rw [tokens_same hU hc hs]
  rw [visits_same hs] at hv'
  have key : ∀ (c c' : Clf (Dict Tok WordInfo) K) (it it' : SetIter Tok) (v v' : Visit), Visits U e v → Visits U e v' →
      Represents (L.map (entry U o)) false c → Coherent F c → Represents (L.map (entry U o)) false c' → Coherent F c' →
      (scoreGen F (memory Tok) it (e.tokens U o v) ev c).1 = .ok r →
      (scoreGen F (memory Tok) it' (e.tokens U o v') ev c').1 = .ok r := by
    intro c c' it it' v v' hv hv' r1 k1 r2 k2 hr
    unfold scoreGen at hr ⊢
    cases hst : (e.tokens U o v).stop with
    | some x => rw [hst] at hr; simp only [scoreRaising_plain F _ _ x r1.ub] at hr; cases hr
    | none =>
      obtain ⟨ht, hm⟩ := tokens_order hv hv' hst
      rw [hst] at hr
      rw [ht]
      simp only at hr ⊢
      rw [spamprob_eq F k1, r1.ub, r1.nspam, r1.nham, funext r1.info] at hr
      rw [spamprob_eq F k2, r2.ub, r2.nspam, r2.nham, funext r2.info]
      obtain ⟨clues, S, H, h1, h2, h3⟩ := pureSpamprob_ok hr
      have h1' := unigram_perm (order_perm (it' := it') (fun w => (hm w).symm)) (it.nodup _) h1
      rw [pureSpamprob_of (it := it') (s := .iterator (e.tokens U o v').toks) (ub := some false) h1' h2, ← h3]
  exact ⟨key _ _ _ _ _ _ hv hv' r1 k1 r2 k2, key _ _ _ _ _ _ hv' hv r2 k2 r1 k1⟩

/-! ### With bigrams, and the parts visited in the same order each time -/

/-- `FiledAs L steps L'`: the messages learned, with the order in which their parts were
visited, are `L` before the steps and `L'` after them.  Every message unlearned had been
learned as the same kind and with its parts visited in the same order, perhaps with other
SpamBayes headers. -/
inductive FiledAs : Multiset (Envelope × Visit × Bool) → List Step → Multiset (Envelope × Visit × Bool) → Prop
  | nil (L) : FiledAs L [] L
  | learn {L L' e v it b r} : FiledAs ((e, v, b) ::ₘ L) r L' → FiledAs L (.learn e v it b :: r) L'
  | unlearn {L L' e e' v it b r} : SameLetter e e' → FiledAs L r L' →
      FiledAs ((e, v, b) ::ₘ L) (.unlearn e' v it b :: r) L'
  | score {L L' e v it ev r} : FiledAs L r L' → FiledAs L (.score e v it ev :: r) L'

/-- What a message trains: nothing if it cannot be tokenized. -/
def TrainsOn (U : StrMore) (o : Tokenize.Opts) (ub : Bool) (e : Envelope) (v : Visit) (w : Tok) : Prop :=
  (e.tokens U o v).stop = none ∧ w ∈ trained ub (.iterator (e.tokens U o v).toks)

/-- helper: what a message trains, as a list -/
def trainedList (U : StrMore) (o : Tokenize.Opts) (ub : Bool) (e : Envelope) (v : Visit) : List Tok :=
  match (e.tokens U o v).stop with
  | none => trainTokens ub (.iterator (e.tokens U o v).toks)
  | some _ => []

theorem mem_trainedList {U : StrMore} {o : Tokenize.Opts} {ub : Bool} {e : Envelope} {v : Visit} {w : Tok} :
    w ∈ trainedList U o ub e v ↔ TrainsOn U o ub e v w := by
  unfold trainedList TrainsOn
  cases (e.tokens U o v).stop with
  | none => simp [trainTokens_eq]
  | some x => simp

/-- helper: the entry in the ledger -/
def entryAs (U : StrMore) (o : Tokenize.Opts) (ub : Bool) (p : Envelope × Visit × Bool) : Spec.Msg Tok :=
  ((trainedList U o ub p.1 p.2.1).toFinset, p.2.2)

theorem learnGen_as {U : StrMore} {o : Tokenize.Opts} {ub : Bool} {c : Clf (Dict Tok WordInfo) K} (h : c.useBigrams = some ub)
    (e : Envelope) (v : Visit) (it : SetIter Tok) (b : Bool) :
    (learnGen (memory Tok) it (e.tokens U o v) b c).2 = afterAdd it (trainedList U o ub e v) b c := by
  unfold learnGen trainedList
  cases hs : (e.tokens U o v).stop with
  | none => simp only; rw [learn_memory it _ b c h]
  | some x => simp only; rw [C70_learn c ub h x b, ← afterAdd_nil it b c]

theorem unlearnGen_as {U : StrMore} {o : Tokenize.Opts} {ub : Bool} {c : Clf (Dict Tok WordInfo) K} (h : c.useBigrams = some ub)
    (e : Envelope) (v : Visit) (it : SetIter Tok) (b : Bool) (hp : ¬ total b c ≤ 0) :
    (unlearnGen (memory Tok) it (e.tokens U o v) b c).2 = afterRemove it (trainedList U o ub e v) b c := by
  unfold unlearnGen trainedList
  cases hs : (e.tokens U o v).stop with
  | none => simp only; rw [unlearn_memory it _ b c h, if_neg hp]
  | some x => simp only; rw [C70_unlearn c ub h x b, if_neg (by cases b <;> exact hp), ← afterRemove_nil it b c]

theorem represents_store {L : Ledger Tok} {ub : Bool} {c c' : Clf (Dict Tok WordInfo) K} (h : Represents L ub c)
    (h1 : c'.store = c.store) (h2 : c'.nspam = c.nspam) (h3 : c'.nham = c.nham) (h4 : c'.useBigrams = c.useBigrams) :
    Represents L ub c' :=
  ⟨h4.trans h.ub, h2.trans h.nspam, h3.trans h.nham, fun w => by rw [h1]; exact h.info w⟩

theorem desk_as {U : StrMore} (hU : LowersAscii U.toStr) {o : Tokenize.Opts} (hc : o.countAll = false) (ub : Bool)
    (F : FloatOps K) {L L' : Multiset (Envelope × Visit × Bool)} {steps : List Step} (h : FiledAs L steps L') :
    ∀ c : Clf (Dict Tok WordInfo) K, Represents (L.map (entryAs U o ub)) ub c → Coherent F c →
      Represents (L'.map (entryAs U o ub)) ub (desk F (memory Tok) U o c steps) ∧
      Coherent F (desk F (memory Tok) U o c steps) := by
  induction h with
  | nil L => intro c h1 h2; exact ⟨h1, h2⟩
  | @learn L L' e v it b r _ ih =>
    intro c h1 h2
    have h3 := represents_afterAdd h1 it (trainedList U o ub e v) b
    rw [← learnGen_as h1.ub] at h3
    refine ih _ (by rw [Multiset.map_cons]; exact h3) ?_
    show Coherent F (learnGen (memory Tok) it (e.tokens U o v) b c).2
    rw [learnGen_as h1.ub]
    exact coherent_of_empty F _ rfl
  | @unlearn L L' e e' v it b r hs _ ih =>
    intro c h1 h2
    rw [Multiset.map_cons] at h1
    have hp : ¬ total b c ≤ 0 := total_pos (L := L.map (entryAs U o ub)) (ws := trainedList U o ub e v) h1
    have h3 := represents_afterRemove (trainedList U o ub e v) b h1 it
    rw [← unlearnGen_as h1.ub e v it b hp] at h3
    have e1 : Step.run F (memory Tok) U o c (.unlearn e' v it b) =
        (unlearnGen (memory Tok) it (e.tokens U o v) b c).2 := by
      show (unlearnGen (memory Tok) it (e'.tokens U o v) b c).2 = _
      rw [tokens_same hU hc hs]
    refine ih _ (by rw [e1]; exact h3) ?_
    rw [e1, unlearnGen_as h1.ub e v it b hp]
    exact coherent_of_empty F _ rfl
  | @score L L' e v it ev r _ ih =>
    intro c h1 h2
    refine ih _ ?_ ?_
    · show Represents _ ub (scoreGen F (memory Tok) it (e.tokens U o v) ev c).2
      unfold scoreGen
      cases (e.tokens U o v).stop with
      | some x =>
        obtain ⟨-, i1, i2, i3, i4, -⟩ := C09_raising (α := K × Option (List (EvWord Tok × K))) F c (e.tokens U o v).toks x h2
        exact represents_store h1 i1 i2 i3 i4
      | none =>
        obtain ⟨-, -, i3, i4, i5, i6⟩ := spamprob_memory (F := F) c h2 it (.iterator (e.tokens U o v).toks) ev
        exact represents_store h1 i3 i4 i5 i6
    · show Coherent F (scoreGen F (memory Tok) it (e.tokens U o v) ev c).2
      unfold scoreGen
      cases (e.tokens U o v).stop with
      | some x => exact (scoreRaising_frame (α := K × Option (List (EvWord Tok × K))) F c (e.tokens U o v).toks x h2).2.2.2.2.2
      | none => exact (spamprob_memory (F := F) c h2 it (.iterator (e.tokens U o v).toks) ev).2.1

open Classical in
/-- **C102.** With or without bigrams: if the parts of a message are always visited in the
same order, then after any session totals and word counts are those of the messages now
learned. -/
theorem C102_same_order_partial (U : StrMore) (hU : LowersAscii U.toStr) (o : Tokenize.Opts) (hc : o.countAll = false)
    (ub : Bool) (F : FloatOps K) (steps : List Step) (L : Multiset (Envelope × Visit × Bool)) (h : FiledAs 0 steps L) :
    let c := desk F (memory Tok) U o (Clf.new ub Dict.empty) steps
    let spam := fun w => L.countP (fun p => p.2.2 = true ∧ TrainsOn U o ub p.1 p.2.1 w)
    let ham := fun w => L.countP (fun p => p.2.2 = false ∧ TrainsOn U o ub p.1 p.2.1 w)
    c.nspam = L.countP (fun p => p.2.2 = true) ∧ c.nham = L.countP (fun p => p.2.2 = false) ∧
    ∀ w, c.store.get? w = if spam w = 0 ∧ ham w = 0 then none else some ⟨spam w, ham w⟩ := by
  obtain ⟨h1, -⟩ := desk_as hU hc ub F h (Clf.new ub Dict.empty) (represents_new ub) (coherent_of_empty F _ rfl)
  have hm : ∀ (q : Spec.Msg Tok → Prop) (r : Envelope × Visit × Bool → Prop) [DecidablePred q] [DecidablePred r],
      (∀ p, q (entryAs U o ub p) ↔ r p) → (L.map (entryAs U o ub)).countP q = L.countP r := by
    intro q r _ _ hqr
    rw [Multiset.countP_map]
    rw [Multiset.countP_eq_card_filter]
    congr 1
    refine Multiset.filter_congr fun p _ => ?_
    exact hqr p
  refine ⟨?_, ?_, ?_⟩
  · rw [h1.nspam]
    unfold spamTotal
    rw [hm _ (fun p => p.2.2 = true) (fun p => Iff.rfl)]
  · rw [h1.nham]
    unfold hamTotal
    rw [hm _ (fun p => p.2.2 = false) (fun p => Iff.rfl)]
  · intro w
    have hs : spamCount (L.map (entryAs U o ub)) w = L.countP (fun p => p.2.2 = true ∧ TrainsOn U o ub p.1 p.2.1 w) :=
      hm (fun m => m.2 = true ∧ w ∈ m.1) _ (fun p => and_congr_right fun _ => by
        unfold entryAs; rw [List.mem_toFinset]; exact mem_trainedList)
    have hh : hamCount (L.map (entryAs U o ub)) w = L.countP (fun p => p.2.2 = false ∧ TrainsOn U o ub p.1 p.2.1 w) :=
      hm (fun m => m.2 = false ∧ w ∈ m.1) _ (fun p => and_congr_right fun _ => by
        unfold entryAs; rw [List.mem_toFinset]; exact mem_trainedList)
    rw [h1.info w]
    unfold recordOf
    rw [hs, hh]

/-- **C102.** With bigrams too, the score of a message depends only on the messages learned
and the orders in which the parts are visited: not on the order of the messages, nor
on SpamBayes headers, nor on the order of sets of tokens. -/
theorem C102_same_order_score_partial (U : StrMore) (hU : LowersAscii U.toStr) (o : Tokenize.Opts)
    (hc : o.countAll = false) (F : FloatOps K) (steps steps' : List Step) (L : Multiset (Envelope × Visit × Bool))
    (h : FiledAs 0 steps L) (h' : FiledAs 0 steps' L) (e e' : Envelope) (hs : SameLetter e e') (v : Visit)
    (it it' : SetIter Tok) (ev : Bool) (r : K × Option (List (EvWord Tok × K))) :
    (scoreGen F (memory Tok) it (e.tokens U o v) ev
      (desk F (memory Tok) U o (Clf.new true Dict.empty) steps)).1 = .ok r ↔
    (scoreGen F (memory Tok) it' (e'.tokens U o v) ev
      (desk F (memory Tok) U o (Clf.new true Dict.empty) steps')).1 = .ok r := by
  obtain ⟨r1, k1⟩ := desk_as hU hc true F h (Clf.new true Dict.empty) (represents_new true) (coherent_of_empty F _ rfl)
  obtain ⟨r2, k2⟩ := desk_as hU hc true F h' (Clf.new true Dict.empty) (represents_new true) (coherent_of_empty F _ rfl)
  rw [tokens_same hU hc hs]
  unfold scoreGen
  cases hst : (e.tokens U o v).stop with
  | some x =>
    obtain ⟨⟨x1, h1⟩, -⟩ := C09_raising (α := K × Option (List (EvWord Tok × K))) F _ (e.tokens U o v).toks x k1
    obtain ⟨⟨x2, h2⟩, -⟩ := C09_raising (α := K × Option (List (EvWord Tok × K))) F _ (e.tokens U o v).toks x k2
    simp only
    rw [h1, h2]
    simp
  | none =>
    simp only
    rw [spamprob_eq F k1, r1.ub, r1.nspam, r1.nham, funext r1.info, spamprob_eq F k2, r2.ub, r2.nspam, r2.nham,
      funext r2.info]
    rfl

/-- The claim: unlearning a message undoes learning it, also if the SpamBayes headers or
the order of the parts are no longer the same. -/
def C102Claim (K : Type) (ub : Bool) : Prop :=
  ∀ (U : StrMore), LowersAscii U.toStr → ∀ (o : Tokenize.Opts), o.countAll = false →
  ∀ (c : Clf (Dict Tok WordInfo) K), c.useBigrams = some ub → Sane c →
  ∀ (e e' : Envelope), SameLetter e e' → ∀ (v v' : Visit), Visits U e v → Visits U e' v' →
  ∀ (it it' : SetIter Tok) (b : Bool),
    let r1 := learnGen (memory Tok) it (e.tokens U o v) b c
    let r2 := unlearnGen (memory Tok) it' (e'.tokens U o v') b r1.2
    r2.2.nspam = c.nspam ∧ r2.2.nham = c.nham ∧ ∀ w, r2.2.store.get? w = c.store.get? w

/-- **C102.** It holds without bigrams, also for messages that cannot be tokenized. -/
theorem C102_round_trip_partial : C102Claim K false := by
  intro U hU o hc c hub hsane e e' hs v v' hv hv' it it' b
  rw [tokens_same hU hc hs]
  rw [visits_same hs] at hv'
  cases hst : (e.tokens U o v).stop with
  | none =>
    obtain ⟨ht, hm⟩ := tokens_order hv hv' hst
    simp only [learnGen, unlearnGen, hst, ht]
    obtain ⟨-, -, h1, h2, h3⟩ := C01_unlearn_undoes_learn c false hub hsane it it'
      (.iterator (e.tokens U o v).toks) b
    have hub' : (learn (memory Tok) it (.iterator (e.tokens U o v).toks) b c).2.useBigrams = some false := by
      rw [learn_memory it _ b c hub]; exact hub
    obtain ⟨-, i1, i2, i3⟩ := (C04_only_the_token_set _ hub' it' it' (.iterator (e.tokens U o v').toks)
      (.iterator (e.tokens U o v).toks) hm b).2
    exact ⟨i1.trans h1, i2.trans h2, fun w => (i3 w).trans (h3 w)⟩
  | some x =>
    cases ht : (e.tokens U o v').stop with
    | none =>
      rw [(tokens_order hv' hv ht).1] at hst
      cases hst
    | some y =>
      simp only [learnGen, unlearnGen, hst, ht]
      rw [C70_learn c false hub]
      have hu := C70_unlearn (K := K) { c with
        probcache := Dict.empty, nspam := c.nspam + (if b then 1 else 0), nham := c.nham + (if b then 0 else 1) } false hub y b
      have := hsane.nspam
      have := hsane.nham
      cases b <;> simp at hu ⊢ <;> rw [if_neg (by omega)] at hu <;> rw [hu] <;> simp

/-- A part with a text. -/
def textual (s : String) : Mime := .part (some (txt "text/plain")) false noView (.bytes (txt s)) .none none

/-- A message with two texts. -/
def letter : Envelope :=
  ⟨plainLib, [(txt "Content-Type", .str (txt "multipart/mixed"))], some [textual "red green", textual "blue pink"]⟩

theorem letter_visits : Visits asciiMore letter ⟨[], [textual "red green", textual "blue pink"]⟩ ∧
    Visits asciiMore letter ⟨[], [textual "blue pink", textual "red green"]⟩ := by
  have h1 : Mime.textparts asciiMore.toStr letter.root = [textual "red green", textual "blue pink"] := by rfl
  have h2 : Mime.octetparts asciiMore.toStr letter.root = [] := by rfl
  unfold Visits
  rw [h1, h2]
  exact ⟨⟨.refl _, .refl _⟩, .swap _ _ _, .refl _⟩

theorem letter_tokens :
    letter.tokens asciiMore .default ⟨[], [textual "red green", textual "blue pink"]⟩ =
      .yield (["content-type:multipart/mixed", "content-type:text/plain", "content-type:text/plain", "from:none",
        "to:none", "cc:none", "sender:none", "reply-to:none", "x-mailer:none", "message-id:invalid", "red",
        "green", "blue", "pink"].map (fun s => .bytes (txt s))) := by decide

theorem letter_tokens' :
    letter.tokens asciiMore .default ⟨[], [textual "blue pink", textual "red green"]⟩ =
      .yield (["content-type:multipart/mixed", "content-type:text/plain", "content-type:text/plain", "from:none",
        "to:none", "cc:none", "sender:none", "reply-to:none", "x-mailer:none", "message-id:invalid", "blue",
        "pink", "red", "green"].map (fun s => .bytes (txt s))) := by decide

/-- **C102 is false** with bigrams: after learning and unlearning a message with two texts
some of its words may still be counted. -/
theorem C102_claim_false : ¬ C102Claim ℚ true := by
  intro h
  have := (h asciiMore (fun _ _ => rfl) .default rfl (Clf.new true Dict.empty) rfl (sane_new true) letter letter
    ⟨rfl, rfl, rfl⟩ _ _ letter_visits.1 letter_visits.2 .dedup .dedup true).2.2 (.bytes (txt "red"))
  rw [letter_tokens, letter_tokens'] at this
  simp only [learnGen, unlearnGen, Gen.yield] at this
  rw [learn_memory _ _ _ _ (ub := true) rfl, unlearn_memory _ _ _ _ (ub := true) rfl, if_neg (by decide)] at this
  simp only [afterRemove, afterAdd] at this
  rw [get?_removeAll, if_neg (by decide), get?_addAll, if_pos (by decide)] at this
  cases this

/-! ### Examples -/

example (F : FloatOps ℚ) : Coherent F { Clf.new true ((Dict.empty : Dict Tok WordInfo).set (.bytes [97]) ⟨1, 0⟩) with
    nspam := 1 } := coherent_of_empty F _ rfl

/-- The same message, marked. -/
example : SameLetter letter { letter with
    headers := (addSbHeaders plainFmt (.fin 1) [] {} { Msg.new with headers := letter.headers }).2.headers } :=
  ⟨rfl, rfl, C101_add plainFmt (.fin 1) [] {} { Msg.new with headers := letter.headers }
    (by rintro ⟨l, h, -⟩; cases h) (by rintro ⟨l, h, -⟩; cases h)⟩

example : Filed asciiMore 0
    [.learn letter ⟨[], [textual "red green", textual "blue pink"]⟩ .dedup true,
     .learn letter ⟨[], [textual "blue pink", textual "red green"]⟩ .revDedup false,
     .score letter ⟨[], [textual "red green", textual "blue pink"]⟩ .dedup true,
     .unlearn letter ⟨[], [textual "blue pink", textual "red green"]⟩ .dedup true]
    {(letter, false)} := by
  refine .learn letter_visits.1 (.learn letter_visits.2 (.score ?_))
  rw [Multiset.cons_swap]
  exact .unlearn ⟨rfl, rfl, rfl⟩ letter_visits.2 (.nil _)

example : Has asciiMore .default letter (.bytes (txt "pink")) :=
  ⟨_, letter_visits.1, by rw [letter_tokens]; rfl, by rw [letter_tokens]; decide⟩

/-- With its parts visited in the same order each time. -/
example : FiledAs 0
    [.learn letter ⟨[], [textual "red green", textual "blue pink"]⟩ .dedup true,
     .learn letter ⟨[], [textual "blue pink", textual "red green"]⟩ .revDedup false,
     .score letter ⟨[], [textual "red green", textual "blue pink"]⟩ .dedup true,
     .unlearn letter ⟨[], [textual "red green", textual "blue pink"]⟩ .dedup true]
    {(letter, ⟨[], [textual "blue pink", textual "red green"]⟩, false)} := by
  refine .learn (.learn (.score ?_))
  rw [Multiset.cons_swap]
  exact .unlearn ⟨rfl, rfl, rfl⟩ (.nil _)

example : TrainsOn asciiMore .default true letter ⟨[], [textual "red green", textual "blue pink"]⟩
    (.bytes (txt "red")) := by
  unfold TrainsOn
  rw [letter_tokens]
  exact ⟨rfl, by decide⟩

end Sb.Props
