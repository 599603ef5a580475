import Verif.Model.Restart
import Verif.Props.Desk

/-
Property C105: messages learned survive a restart.
-/

set_option linter.unusedSectionVars false
namespace Sb.Props
open Sb Sb.Mail Sb.Tokenize Sb.Strip Py Py.Text Spec

/-! ### The words of the statements -/

/-- `Kept U L S deeds L' S'`: the messages learned are `L` and those in the file `S` (`none`:
there is no file); after the deeds they are `L'` and `S'`.  A message unlearned is one
learned (before the last restart or after it), perhaps with other SpamBayes headers and
with its parts visited in another order. -/
inductive Kept (U : StrMore) : Multiset (Envelope × Bool) → Option (Multiset (Envelope × Bool)) → List Deed →
    Multiset (Envelope × Bool) → Option (Multiset (Envelope × Bool)) → Prop
  | nil (L S) : Kept U L S [] L S
  | learn {L S L' S' e v it b r} : Visits U e v → Kept U ((e, b) ::ₘ L) S r L' S' →
      Kept U L S (.step (.learn e v it b) :: r) L' S'
  | unlearn {L S L' S' e e' v it b r} : SameLetter e e' → Visits U e' v → Kept U L S r L' S' →
      Kept U ((e, b) ::ₘ L) S (.step (.unlearn e' v it b) :: r) L' S'
  | score {L S L' S' e v it ev r} : Kept U L S r L' S' → Kept U L S (.step (.score e v it ev) :: r) L' S'
  | store {L S L' S' r} : Kept U L (some L) r L' S' → Kept U L S (.store false :: r) L' S'
  | storeFails {L S L' S' r} : Kept U L S r L' S' → Kept U L S (.store true :: r) L' S'
  | load {L S L' S' r} : Kept U (S.getD 0) S r L' S' → Kept U L S (.load false :: r) L' S'
  | loadFails {L S L' S' r} : Kept U 0 S r L' S' → Kept U L S (.load true :: r) L' S'
  | restart {L S L' S' r} : Kept U (S.getD 0) S r L' S' → Kept U L S (.restart false :: r) L' S'
  | restartFails {L S L' S' r} : Kept U 0 S r L' S' → Kept U L S (.restart true :: r) L' S'

/-! ### The invariant -/

variable {K B : Type} [Field K] [LinearOrder K]

/-- helper: the file holds a classifier with these messages -/
def FileHolds (codec : Codec B Tok) (U : StrMore) (o : Tokenize.Opts)
    (S : Option (Multiset (Envelope × Bool))) (file : Option B) : Prop :=
  match S with
  | none => file = none
  | some L => ∃ c : Clf (Dict Tok WordInfo) ℚ, file = some (codec.enc (getState c)) ∧
      Represents (L.map (entry U o)) false c

theorem represents_move {K' : Type} {L : Ledger Tok} {c : Clf (Dict Tok WordInfo) K} {c' : Clf (Dict Tok WordInfo) K'}
    (h : Represents L false c) (hub : c'.useBigrams = some false) (h1 : c'.store = c.store)
    (h2 : c'.nspam = c.nspam) (h3 : c'.nham = c.nham) : Represents L false c' :=
  ⟨hub, h2.trans h.nspam, h3.trans h.nham, by rw [h1]; exact h.info⟩

/-- helper: the cache is coherent, or of no use because no word is known (after a `load`
that failed, storage.py l.159-164) -/
def Settled (F : FloatOps K) (c : Clf (Dict Tok WordInfo) K) : Prop :=
  Coherent F c ∨ ∀ w, c.store.get? w = none

/-- helper: without known words nothing is looked up in the cache -/
theorem spamprob_unknown (F : FloatOps K) (c : Clf (Dict Tok WordInfo) K) (hub : c.useBigrams = some false)
    (hn : ∀ w, c.store.get? w = none) (it : SetIter Tok) (s : Stream Tok) (ev : Bool) :
    (spamprob F (memory Tok) it s ev c).1 =
      pureSpamprob F c.nspam c.nham c.useBigrams c.store.get? it s ev ∧
    (spamprob F (memory Tok) it s ev c).2 = c := by
  have h1 : ∀ w, Computes (fun d => d = c) (wordDistanceGet F (memory Tok) w)
      (pureClue F c.nspam c.nham c.store.get? w) := by
    rintro w d rfl
    unfold wordDistanceGet pureClue
    rw [M.bind_run]
    simp only [onStore, memory, hn, M.bind_run]
    exact ⟨rfl, rfl⟩
  have h2 : Computes (fun d => d = c) (getClues F (memory Tok) it s)
      (pureClues F c.nspam c.nham c.useBigrams c.store.get? it s) := by
    rintro d rfl
    unfold getClues
    rw [M.bind_run_ok (M.get_run _), hub]
    have : Computes (fun d' => d' = d) (getCluesUnigram F (memory Tok) it s.items)
        (pureCluesUnigram F d.nspam d.nham d.store.get? (it.order s.items)) := by
      unfold getCluesUnigram pureCluesUnigram
      exact Computes.bind (Computes.mapAll _ fun x _ => h1 x) fun all _ => Computes.pure _
    exact this d rfl
  have h3 : Computes (fun d => d = c) (spamprob F (memory Tok) it s ev)
      (pureSpamprob F c.nspam c.nham c.useBigrams c.store.get? it s ev) := by
    unfold spamprob pureSpamprob
    refine Computes.bind h2 fun clues _ => ?_
    cases combine F (clues.map (·.prob)) with
    | error e => exact Computes.raise _
    | ok v =>
      obtain ⟨prob, S, H⟩ := v
      cases ev <;> exact Computes.pure _
  exact h3 c rfl

/-- helper -/
theorem spamprob_settled (F : FloatOps K) {c : Clf (Dict Tok WordInfo) K} (hub : c.useBigrams = some false)
    (hc : Settled F c) (it : SetIter Tok) (s : Stream Tok) (ev : Bool) :
    (spamprob F (memory Tok) it s ev c).1 =
      pureSpamprob F c.nspam c.nham c.useBigrams c.store.get? it s ev ∧
    Settled F (spamprob F (memory Tok) it s ev c).2 ∧
    (spamprob F (memory Tok) it s ev c).2.store = c.store ∧
    (spamprob F (memory Tok) it s ev c).2.nspam = c.nspam ∧
    (spamprob F (memory Tok) it s ev c).2.nham = c.nham ∧
    (spamprob F (memory Tok) it s ev c).2.useBigrams = c.useBigrams := by
  rcases hc with hc | hc
  · obtain ⟨h1, h2, h3⟩ := spamprob_memory (F := F) c hc it s ev
    exact ⟨h1, .inl h2, h3⟩
  · obtain ⟨h1, h2⟩ := spamprob_unknown F c hub hc it s ev
    rw [h2]
    exact ⟨h1, .inr hc, rfl, rfl, rfl, rfl⟩

/-- helper -/
theorem load_holds (codec : Codec B Tok) (U : StrMore) (o : Tokenize.Opts) (F : FloatOps K)
    {S : Option (Multiset (Envelope × Bool))} {file : Option B} (h : FileHolds codec U o S file)
    (c : Clf (Dict Tok WordInfo) K) (hub : c.useBigrams = some false) (t : Bool) :
    Represents ((if t then 0 else S.getD 0).map (entry U o)) false (pickleLoad codec ⟨t, file⟩ c).2 ∧
    Settled F (pickleLoad codec ⟨t, file⟩ c).2 := by
  have hempty : Represents ((0 : Multiset (Envelope × Bool)).map (entry U o)) false
      { c with store := Dict.empty, nham := 0, nspam := 0 } ∧
      Settled F { c with store := Dict.empty, nham := 0, nspam := 0 } := by
    refine ⟨?_, .inr fun w => rfl⟩
    rw [Multiset.map_zero]
    exact represents_move (represents_new (K := K) false) hub rfl rfl rfl
  cases t with
  | true => exact hempty
  | false =>
    cases S with
    | none =>
      have h' : file = none := h
      subst h'
      exact hempty
    | some L =>
      obtain ⟨d, rfl, hd⟩ := h
      simp only [pickleLoad, pickleRead, codec.dec_enc, unpickle, setState, pickleVersion, getState]
      exact ⟨represents_move hd hub rfl rfl rfl, .inl (coherent_of_empty F _ rfl)⟩

/-- helper -/
theorem office_ledger {U : StrMore} (hU : LowersAscii U.toStr) {o : Tokenize.Opts} (hc : o.countAll = false)
    (F : FloatOps K) (codec : Codec B Tok) {L L' : Multiset (Envelope × Bool)}
    {S S' : Option (Multiset (Envelope × Bool))} {deeds : List Deed} (h : Kept U L S deeds L' S') :
    ∀ s : Clf (Dict Tok WordInfo) K × Option B, Represents (L.map (entry U o)) false s.1 → Settled F s.1 →
      FileHolds codec U o S s.2 →
      Represents (L'.map (entry U o)) false (deeds.foldl (Deed.run F codec U o) s).1 ∧
      Settled F (deeds.foldl (Deed.run F codec U o) s).1 ∧
      FileHolds codec U o S' (deeds.foldl (Deed.run F codec U o) s).2 := by
  induction h with
  | nil L S => intro s h1 h2 h3; exact ⟨h1, h2, h3⟩
  | @learn L S L' S' e v it b r hv _ ih =>
    intro s h1 h2 h3
    obtain ⟨-, h4, h5⟩ := learnGen_ledger (o := o) hv F h1 it b
    rw [← Multiset.map_cons (entry U o)] at h4
    exact ih _ h4 (.inl h5) h3
  | @unlearn L S L' S' e e' v it b r hs hv _ ih =>
    intro s h1 h2 h3
    rw [Multiset.map_cons, ← entry_same hU hc hs b] at h1
    obtain ⟨-, h4, h5⟩ := unlearnGen_ledger hv F h1 it
    exact ih _ h4 (.inl h5) h3
  | @score L S L' S' e v it ev r _ ih =>
    intro s h1 h2 h3
    have : Represents (L.map (entry U o)) false (Step.run F (memory Tok) U o s.1 (.score e v it ev)) ∧
        Settled F (Step.run F (memory Tok) U o s.1 (.score e v it ev)) := by
      show Represents _ false (scoreGen F (memory Tok) it (e.tokens U o v) ev s.1).2 ∧
        Settled F (scoreGen F (memory Tok) it (e.tokens U o v) ev s.1).2
      unfold scoreGen
      cases (e.tokens U o v).stop with
      | some x => simp only [scoreRaising_plain F _ _ x h1.ub]; exact ⟨h1, h2⟩
      | none =>
        obtain ⟨-, i2, i3, i4, i5, i6⟩ := spamprob_settled F h1.ub h2 it (.iterator (e.tokens U o v).toks) ev
        exact ⟨represents_move h1 (i6.trans h1.ub) i3 i4 i5, i2⟩
    exact ih (_, s.2) this.1 this.2 h3
  | @store L S L' S' r _ ih =>
    intro s h1 h2 h3
    refine ih (s.1, _) h1 h2 ?_
    exact ⟨⟨some false, s.1.store, Dict.empty, s.1.nspam, s.1.nham⟩, rfl, represents_move h1 rfl rfl rfl rfl⟩
  | @storeFails L S L' S' r _ ih =>
    intro s h1 h2 h3
    exact ih (s.1, s.2) h1 h2 h3
  | @load L S L' S' r _ ih =>
    intro s h1 h2 h3
    obtain ⟨h4, h5⟩ := load_holds codec U o F h3 s.1 h1.ub false
    exact ih (_, s.2) h4 h5 h3
  | @loadFails L S L' S' r _ ih =>
    intro s h1 h2 h3
    obtain ⟨h4, h5⟩ := load_holds codec U o F h3 s.1 h1.ub true
    exact ih (_, s.2) h4 h5 h3
  | @restart L S L' S' r _ ih =>
    intro s h1 h2 h3
    obtain ⟨h4, h5⟩ := load_holds codec U o F h3 (Clf.new false Dict.empty) rfl false
    exact ih (_, s.2) h4 h5 h3
  | @restartFails L S L' S' r _ ih =>
    intro s h1 h2 h3
    obtain ⟨h4, h5⟩ := load_holds codec U o F h3 (Clf.new false Dict.empty) rfl true
    exact ih (_, s.2) h4 h5 h3

/-- helper -/
theorem office_from_nothing {U : StrMore} (hU : LowersAscii U.toStr) {o : Tokenize.Opts} (hc : o.countAll = false)
    (F : FloatOps K) (codec : Codec B Tok) {L : Multiset (Envelope × Bool)}
    {S : Option (Multiset (Envelope × Bool))} {deeds : List Deed} (h : Kept U 0 none deeds L S) :
    Represents (L.map (entry U o)) false (office F codec U o none deeds).1 ∧
    Settled F (office F codec U o none deeds).1 ∧
    FileHolds codec U o S (office F codec U o none deeds).2 := by
  obtain ⟨h4, h5⟩ := load_holds codec U o F (S := none) (file := none) rfl (Clf.new false Dict.empty) rfl false
  exact office_ledger hU hc F codec h _ h4 h5 rfl

/-! ### C105 -/

/-- helper -/
theorem countP_entry (U : StrMore) (o : Tokenize.Opts) (L : Multiset (Envelope × Bool))
    (q : Spec.Msg Tok → Prop) (r : Envelope × Bool → Prop) [DecidablePred q] [DecidablePred r]
    (hqr : ∀ p, q (entry U o p) ↔ r p) : (L.map (entry U o)).countP q = L.countP r := by
  rw [Multiset.countP_map, Multiset.countP_eq_card_filter]
  congr 1
  exact Multiset.filter_congr fun p _ => hqr p

/-- helper -/
theorem stored_back (codec : Codec B Tok) (c : Clf (Dict Tok WordInfo) K) (f : Option B) :
    (pickleNew codec ⟨false, (pickleStore codec c ⟨false, f⟩).2.file⟩).2 =
      { c with useBigrams := some false, probcache := (Dict.empty : Dict Int (Dict Int K)) } := by
  simp [pickleNew, pickleLoad, pickleRead, pickleStore, pickleWrite, codec.dec_enc, unpickle, setState,
    pickleVersion, getState, Clf.new]

open Classical in
/-- **C105.** Whenever the client stores, loads or is restarted, its totals and word counts
are those of the messages learned according to the book-keeping `Kept`. -/
theorem C105_counts (U : StrMore) (hU : LowersAscii U.toStr) (o : Tokenize.Opts) (hc : o.countAll = false)
    (F : FloatOps K) (codec : Codec B Tok) (deeds : List Deed) (L : Multiset (Envelope × Bool))
    (S : Option (Multiset (Envelope × Bool))) (h : Kept U 0 none deeds L S) :
    let c := (office F codec U o none deeds).1
    let spam := fun w => L.countP (fun p => p.2 = true ∧ Has U o p.1 w)
    let ham := fun w => L.countP (fun p => p.2 = false ∧ Has U o p.1 w)
    c.nspam = L.countP (fun p => p.2 = true) ∧ c.nham = L.countP (fun p => p.2 = false) ∧
    ∀ w, c.store.get? w = if spam w = 0 ∧ ham w = 0 then none else some ⟨spam w, ham w⟩ := by
  obtain ⟨h1, -, -⟩ := office_from_nothing hU hc F codec h
  refine ⟨?_, ?_, ?_⟩
  · rw [h1.nspam]
    unfold spamTotal
    rw [countP_entry U o L _ (fun p => p.2 = true) fun p => Iff.rfl]
  · rw [h1.nham]
    unfold hamTotal
    rw [countP_entry U o L _ (fun p => p.2 = false) fun p => Iff.rfl]
  · intro w
    have hs : spamCount (L.map (entry U o)) w = L.countP (fun p => p.2 = true ∧ Has U o p.1 w) :=
      countP_entry U o L (fun m => m.2 = true ∧ w ∈ m.1) _ fun p => and_congr_right fun _ => mem_wordSet
    have hh : hamCount (L.map (entry U o)) w = L.countP (fun p => p.2 = false ∧ Has U o p.1 w) :=
      countP_entry U o L (fun m => m.2 = false ∧ w ∈ m.1) _ fun p => and_congr_right fun _ => mem_wordSet
    rw [h1.info w]
    unfold recordOf
    rw [hs, hh]

/-- helper -/
theorem score_settled {U : StrMore} {o : Tokenize.Opts} (F : FloatOps K) {L : Multiset (Envelope × Bool)}
    {e : Envelope} {ev : Bool} {r : K × Option (List (EvWord Tok × K))}
    {c c' : Clf (Dict Tok WordInfo) K} {it it' : SetIter Tok} {v v' : Visit} (hv : Visits U e v) (hv' : Visits U e v')
    (r1 : Represents (L.map (entry U o)) false c) (k1 : Settled F c)
    (r2 : Represents (L.map (entry U o)) false c') (k2 : Settled F c')
    (hr : (scoreGen F (memory Tok) it (e.tokens U o v) ev c).1 = .ok r) :
    (scoreGen F (memory Tok) it' (e.tokens U o v') ev c').1 = .ok r := by
  unfold scoreGen at hr ⊢
  cases hst : (e.tokens U o v).stop with
  | some x => rw [hst] at hr; simp only [scoreRaising_plain F _ _ x r1.ub] at hr; cases hr
  | none =>
    obtain ⟨ht, hm⟩ := tokens_order hv hv' hst
    rw [hst] at hr
    rw [ht]
    simp only at hr ⊢
    rw [(spamprob_settled F r1.ub k1 _ _ _).1, r1.ub, r1.nspam, r1.nham, funext r1.info] at hr
    rw [(spamprob_settled F r2.ub k2 _ _ _).1, r2.ub, r2.nspam, r2.nham, funext r2.info]
    obtain ⟨clues, A, H, h1, h2, h3⟩ := pureSpamprob_ok hr
    have h1' := unigram_perm (order_perm (it' := it') (fun w => (hm w).symm)) (it.nodup _) h1
    rw [pureSpamprob_of (it := it') (s := .iterator (e.tokens U o v').toks) (ub := some false) h1' h2, ← h3]

/-- **C105.** The score of a message depends only on the messages learned: two clients with
the same messages give the same score, whenever each of them stored and was restarted. -/
theorem C105_score (U : StrMore) (hU : LowersAscii U.toStr) (o : Tokenize.Opts) (hc : o.countAll = false)
    (F : FloatOps K) (codec : Codec B Tok) (deeds deeds' : List Deed) (L : Multiset (Envelope × Bool))
    (S S' : Option (Multiset (Envelope × Bool))) (h : Kept U 0 none deeds L S) (h' : Kept U 0 none deeds' L S')
    (e e' : Envelope) (hs : SameLetter e e') (v v' : Visit) (hv : Visits U e v) (hv' : Visits U e' v')
    (it it' : SetIter Tok) (ev : Bool) (r : K × Option (List (EvWord Tok × K))) :
    (scoreGen F (memory Tok) it (e.tokens U o v) ev (office F codec U o none deeds).1).1 = .ok r ↔
    (scoreGen F (memory Tok) it' (e'.tokens U o v') ev (office F codec U o none deeds').1).1 = .ok r := by
  obtain ⟨r1, k1, -⟩ := office_from_nothing hU hc F codec h
  obtain ⟨r2, k2, -⟩ := office_from_nothing hU hc F codec h'
  rw [tokens_same hU hc hs]
  rw [visits_same hs] at hv'
  exact ⟨score_settled F hv hv' r1 k1 r2 k2, score_settled F hv' hv r2 k2 r1 k1⟩

/-- **C105.** Storing and restarting changes no score, and no exception either. -/
theorem C105_restart (U : StrMore) (hU : LowersAscii U.toStr) (o : Tokenize.Opts) (hc : o.countAll = false)
    (F : FloatOps K) (codec : Codec B Tok) (deeds : List Deed) (L : Multiset (Envelope × Bool))
    (S : Option (Multiset (Envelope × Bool))) (h : Kept U 0 none deeds L S)
    (e : Envelope) (v : Visit) (it : SetIter Tok) (ev : Bool) :
    (scoreGen F (memory Tok) it (e.tokens U o v) ev
      (office F codec U o none (deeds ++ [.store false, .restart false])).1).1 =
    (scoreGen F (memory Tok) it (e.tokens U o v) ev (office F codec U o none deeds).1).1 := by
  obtain ⟨r1, k1, -⟩ := office_from_nothing hU hc F codec h
  have hrun : (office F codec U o none (deeds ++ [.store false, .restart false])).1 =
      { (office F codec U o none deeds).1 with
        useBigrams := some false, probcache := Dict.empty } := by
    unfold office
    rw [List.foldl_append]
    simp only [List.foldl_cons, List.foldl_nil, Deed.run]
    rw [stored_back]
  rw [hrun]
  unfold scoreGen
  cases (e.tokens U o v).stop with
  | some x => simp only; rw [scoreRaising_plain F _ _ x rfl, scoreRaising_plain F _ _ x r1.ub]
  | none =>
    simp only
    rw [(spamprob_settled F r1.ub k1 _ _ _).1, (spamprob_settled F rfl (.inl (coherent_of_empty F _ rfl)) _ _ _).1,
      r1.ub]

/-- **C105.** What was stored stays: whatever the client does, short of storing again, a
restart brings back the messages stored. -/
theorem C105_stored (U : StrMore) (o : Tokenize.Opts) (F : FloatOps K) (codec : Codec B Tok) (file : Option B)
    (deeds later : List Deed) (hl : ∀ d ∈ later, d ≠ .store false) :
    let c := (office F codec U o file deeds).1
    let c' := (office F codec U o file (deeds ++ [.store false] ++ later ++ [.restart false])).1
    c'.nspam = c.nspam ∧ c'.nham = c.nham ∧ c'.store = c.store := by
  have hfile : ∀ (later : List Deed) (s : Clf (Dict Tok WordInfo) K × Option B), (∀ d ∈ later, d ≠ .store false) →
      (later.foldl (Deed.run F codec U o) s).2 = s.2 := by
    intro later
    induction later with
    | nil => intro s _; rfl
    | cons d r ih =>
      intro s hs
      rw [List.foldl_cons, ih _ fun d hd => hs d (List.mem_cons_of_mem _ hd)]
      match d, hs d List.mem_cons_self with
      | .step _, _ => rfl
      | .store true, _ => rfl
      | .store false, h => exact absurd rfl h
      | .load _, _ => rfl
      | .restart _, _ => rfl
  simp only [office, List.foldl_append, List.foldl_cons, List.foldl_nil]
  generalize deeds.foldl (Deed.run F codec U o) _ = s
  have h2 := hfile later (Deed.run F codec U o s (.store false)) hl
  generalize later.foldl (Deed.run F codec U o) _ = s' at h2
  obtain ⟨c', f'⟩ := s'
  simp only at h2
  subst h2
  simp only [Deed.run]
  rw [stored_back]
  exact ⟨rfl, rfl, rfl⟩

/-! ### Examples -/

/-- A message is learned as spam and stored; after a restart another one is learned, which
is lost in the next restart; then the first one is unlearned. -/
example : Kept asciiMore 0 none
    [.step (.learn letter ⟨[], [textual "red green", textual "blue pink"]⟩ .dedup true), .store true, .store false,
     .restart false,
     .step (.learn letter ⟨[], [textual "blue pink", textual "red green"]⟩ .revDedup false), .restart false,
     .step (.unlearn letter ⟨[], [textual "blue pink", textual "red green"]⟩ .dedup true)]
    0 (some {(letter, true)}) := by
  refine .learn letter_visits.1 (.storeFails (.store (.restart (.learn letter_visits.2 (.restart ?_)))))
  exact .unlearn (e := letter) (L := 0) ⟨rfl, rfl, rfl⟩ letter_visits.2 (.nil _ _)

end Sb.Props
