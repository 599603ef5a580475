import Verif.Props.WordCounts

/-
Property C109: what no learned message has does not count.
-/

set_option linter.unusedSectionVars false
namespace Sb.Props
open Sb Sb.Mail Sb.Tokenize Sb.Strip Py Py.Text Spec

/-- Some message learned has the token. -/
def Known (U : StrMore) (o : Tokenize.Opts) (L : Multiset (Envelope × Bool)) (w : Tok) : Prop :=
  ∃ p ∈ L, Has U o p.1 w

/-- Two messages of the same kind that have the same tokens. -/
def SameTokens (U : StrMore) (o : Tokenize.Opts) (p q : Envelope × Bool) : Prop :=
  p.2 = q.2 ∧ ∀ w, Has U o p.1 w ↔ Has U o q.1 w

section
variable {U : StrMore} {o : Tokenize.Opts} {K : Type} [Field K] [LinearOrder K] [IsStrictOrderedRing K]

/-- helper -/
theorem entries_same {L L' : Multiset (Envelope × Bool)} (h : Multiset.Rel (SameTokens U o) L L') :
    L.map (entry U o) = L'.map (entry U o) := by
  rw [← Multiset.rel_eq, Multiset.rel_map]
  refine h.mono ?_
  rintro p - q - ⟨h1, h2⟩
  unfold entry
  rw [h1]
  congr 1
  ext w
  rw [mem_wordSet, mem_wordSet]
  exact h2 w

/-- helper -/
theorem unknown_record {L : Multiset (Envelope × Bool)} {w : Tok} (h : ¬ Known U o L w) :
    recordOf (L.map (entry U o)) w = none := by
  have hs : spamCount (L.map (entry U o)) w = 0 := by
    unfold spamCount
    rw [Multiset.countP_eq_zero]
    intro m hm
    obtain ⟨p, hp, rfl⟩ := Multiset.mem_map.1 hm
    rintro ⟨-, hw⟩
    exact h ⟨p, hp, mem_wordSet.1 hw⟩
  have hh : hamCount (L.map (entry U o)) w = 0 := by
    unfold hamCount
    rw [Multiset.countP_eq_zero]
    intro m hm
    obtain ⟨p, hp, rfl⟩ := Multiset.mem_map.1 hm
    rintro ⟨-, hw⟩
    exact h ⟨p, hp, mem_wordSet.1 hw⟩
  unfold recordOf
  rw [hs, hh]
  simp

/-- helper: the unigram clues are those of the known words -/
theorem unigram_known {F : FloatOps K} (hF : F.Sound) {nspam nham : Nat} {info : Tok → Option WordInfo}
    {order order' : List Tok} (hn : order.Nodup) (hn' : order'.Nodup)
    (hsame : ∀ w, info w ≠ none → (w ∈ order ↔ w ∈ order')) {clues : List (Sb.Clue Tok K)}
    (h : pureCluesUnigram F nspam nham info order = .ok clues) :
    pureCluesUnigram F nspam nham info order' = .ok clues := by
  have hweak : ∀ w, info w = none →
      ∃ c, pureClue F nspam nham info w = .ok c ∧ c.distance < minimumProbStrength F := by
    intro w hw
    refine ⟨_, pureClue_of_prob (p := unknownWordProb F) (by rw [hw]; rfl), ?_⟩
    simp only [unknownWordProb, FloatOps.sub, sub_self, hF.zero, abs_zero]
    exact hF.tenth_pos
  let known : List Tok := order.filter (fun w => decide (info w ≠ none))
  let rest := fun l : List Tok => l.filter (fun w => decide (info w = none))
  have hk : known.Nodup := hn.sublist List.filter_sublist
  have hperm : ∀ l : List Tok, l.Nodup → (∀ w, info w ≠ none → (w ∈ order ↔ w ∈ l)) →
      l.Perm (known ++ rest l) := by
    intro l hl hs
    refine (List.perm_ext_iff_of_nodup hl ?_).2 ?_
    · rw [List.nodup_append]
      refine ⟨hk, hl.sublist List.filter_sublist, ?_⟩
      rintro a ha b hb rfl
      exact (of_decide_eq_true (List.mem_filter.1 ha).2) (of_decide_eq_true (List.mem_filter.1 hb).2)
    · intro w
      simp only [known, rest, List.mem_append, List.mem_filter, decide_eq_true_eq]
      by_cases hw : info w = none
      · simp [hw]
      · simp [hw, hs w hw]
  have hrest : ∀ l, ∀ w ∈ rest l,
      ∃ c, pureClue F nspam nham info w = .ok c ∧ c.distance < minimumProbStrength F := by
    intro l w hw
    exact hweak w (of_decide_eq_true (List.mem_filter.1 hw).2)
  -- the known words alone
  obtain ⟨cl, hcl⟩ : ∃ cl, pureCluesUnigram F nspam nham info known = .ok cl := by
    unfold pureCluesUnigram at h ⊢
    cases hm : order.mapM (pureClue F nspam nham info) with
    | error e => rw [hm] at h; cases h
    | ok all =>
      have hf := (mapM_ok_iff _ _ _).1 hm
      obtain ⟨r, hr⟩ := mapM_ok_of_forall (pureClue F nspam nham info) known (by
        intro w hw
        obtain ⟨y, -, hy⟩ := forall2_mem_left hf (List.mem_filter.1 hw).1
        exact ⟨y, hy⟩)
      rw [hr]
      exact ⟨_, rfl⟩
  have h1 := unigram_weaken (hperm order hn fun _ _ => Iff.rfl) hn (hrest order) hcl
  rw [h] at h1
  cases h1
  exact unigram_weaken (hperm order' hn' hsame) hn' (hrest order') hcl

/-- helper: scoring after a session is scoring with the ledger -/
theorem score_ledger (F : FloatOps K) {L : Multiset (Envelope × Bool)}
    {e : Envelope} {v : Visit} (hs : (e.tokens U o v).stop = none) {c : Clf (Dict Tok WordInfo) K}
    (hr : Represents (L.map (entry U o)) false c) (hk : Coherent F c) (it : SetIter Tok) (ev : Bool) :
    (scoreGen F (memory Tok) it (e.tokens U o v) ev c).1 =
      pureSpamprob F (spamTotal (L.map (entry U o))) (hamTotal (L.map (entry U o))) (some false)
        (recordOf (L.map (entry U o))) it (.iterator (e.tokens U o v).toks) ev := by
  unfold scoreGen
  rw [hs]
  simp only
  rw [spamprob_eq F hk, hr.ub, hr.nspam, hr.nham, funext hr.info]

/-- **C109.** The score of a message depends only on its tokens that some learned message
has, and on the tokens of the learned messages.  What no learned message has can be
added, left out or replaced. -/
theorem C109_known (hU : LowersAscii U.toStr) (hc : o.countAll = false) (F : FloatOps K) (hF : F.Sound)
    (steps steps' : List Step) (L L' : Multiset (Envelope × Bool)) (h : Filed U 0 steps L)
    (h' : Filed U 0 steps' L') (hL : Multiset.Rel (SameTokens U o) L L')
    (e e' : Envelope) (v v' : Visit) (hv : Visits U e v) (hv' : Visits U e' v')
    (ht : (e.tokens U o v).stop = none) (ht' : (e'.tokens U o v').stop = none)
    (hw : ∀ w, Known U o L w → (Has U o e w ↔ Has U o e' w))
    (it it' : SetIter Tok) (ev : Bool) (r : K × Option (List (EvWord Tok × K))) :
    (scoreGen F (memory Tok) it (e.tokens U o v) ev
      (desk F (memory Tok) U o (Clf.new false Dict.empty) steps)).1 = .ok r ↔
    (scoreGen F (memory Tok) it' (e'.tokens U o v') ev
      (desk F (memory Tok) U o (Clf.new false Dict.empty) steps')).1 = .ok r := by
  obtain ⟨r1, k1⟩ := desk_ledger hU hc F h (Clf.new false Dict.empty) (represents_new false)
    (coherent_of_empty F _ rfl)
  obtain ⟨r2, k2⟩ := desk_ledger hU hc F h' (Clf.new false Dict.empty) (represents_new false)
    (coherent_of_empty F _ rfl)
  rw [← entries_same hL] at r2
  rw [score_ledger F ht r1 k1]
  have e2 := score_ledger (e := e') (v := v') F ht' r2 k2 it' ev
  rw [e2]
  have hin : ∀ w, recordOf (L.map (entry U o)) w ≠ none →
      (w ∈ (e.tokens U o v).toks ↔ w ∈ (e'.tokens U o v').toks) := by
    intro w hne
    have hkn : Known U o L w := by
      by_contra hno
      exact hne (unknown_record hno)
    have := hw w hkn
    rw [← mem_wordSet, ← mem_wordSet, ← toFinset_tokens hv ht, ← toFinset_tokens hv' ht',
      List.mem_toFinset, List.mem_toFinset] at this
    exact this
  have key : ∀ (it it' : SetIter Tok) (s s' : List Tok),
      (∀ w, recordOf (L.map (entry U o)) w ≠ none → (w ∈ s ↔ w ∈ s')) →
      pureSpamprob F (spamTotal (L.map (entry U o))) (hamTotal (L.map (entry U o))) (some false)
        (recordOf (L.map (entry U o))) it (.iterator s) ev = .ok r →
      pureSpamprob F (spamTotal (L.map (entry U o))) (hamTotal (L.map (entry U o))) (some false)
        (recordOf (L.map (entry U o))) it' (.iterator s') ev = .ok r := by
    intro it it' s s' hs hr
    obtain ⟨clues, A, B, h1, h2, h3⟩ := pureSpamprob_ok hr
    have h1' := unigram_known hF (it.nodup s) (it'.nodup s') (fun w hw => by
      rw [it.mem, it'.mem]; exact hs w hw) h1
    rw [pureSpamprob_of (it := it') (s := .iterator s') (ub := some false) h1' h2, ← h3]
  exact ⟨key _ _ _ _ hin, key _ _ _ _ fun w hw => (hin w hw).symm⟩

/-- **C109.** A message all of whose tokens are new scores exactly 0.5. -/
theorem C109_stranger (hU : LowersAscii U.toStr) (hc : o.countAll = false) (F : FloatOps K) (hF : F.Sound)
    (hlog : F.log 1 = 0) (steps : List Step) (L : Multiset (Envelope × Bool)) (h : Filed U 0 steps L)
    (e : Envelope) (v : Visit) (ht : (e.tokens U o v).stop = none)
    (hw : ∀ w ∈ (e.tokens U o v).toks, ¬ Known U o L w) (it : SetIter Tok) (ev : Bool) :
    ∃ d, (scoreGen F (memory Tok) it (e.tokens U o v) ev
      (desk F (memory Tok) U o (Clf.new false Dict.empty) steps)).1 = .ok (1 / 2, d) := by
  obtain ⟨r1, k1⟩ := desk_ledger hU hc F h (Clf.new false Dict.empty) (represents_new false)
    (coherent_of_empty F _ rfl)
  rw [score_ledger F ht r1 k1]
  have h0 : pureCluesUnigram F (spamTotal (L.map (entry U o))) (hamTotal (L.map (entry U o)))
      (recordOf (L.map (entry U o))) [] = .ok [] := by
    simp [pureCluesUnigram, keepStrongest]; rfl
  have h1 := unigram_known hF List.nodup_nil (it.nodup (e.tokens U o v).toks) (fun w hne => by
    rw [it.mem]
    refine ⟨fun hh => absurd hh (by simp), fun hh => absurd (unknown_record (hw w hh)) hne⟩) h0
  have h2 : combine F (([] : List (Sb.Clue Tok K)).map (·.prob)) =
      .ok (F.rnd (1 / 2), F.add 0 (F.mul (F.rnd ((0 : Int) : K)) F.ln2),
        F.add 0 (F.mul (F.rnd ((0 : Int) : K)) F.ln2)) := by
    simp only [combine, List.map_nil, List.foldl_nil, Prod2.ln, List.length_nil, hlog]
    rw [if_neg (not_le.2 one_pos)]
    rfl
  rw [hF.half] at h2
  exact ⟨_, pureSpamprob_of h1 h2⟩

/-- **C109.** Plain words that no learned message shows can be added to the texts of a
message; its score stays the same. -/
theorem C109_padding (hU : LowersAscii U.toStr) (F : FloatOps K) (hF : F.Sound)
    (steps : List Step) (L : Multiset (Envelope × Bool)) (h : Filed U 0 steps L)
    (e e' : Envelope) (v v' : Visit) (hv : Visits U e v) (hv' : Visits U e' v')
    (ht : (e.tokens U .default v).stop = none) (ht' : (e'.tokens U .default v').stop = none)
    (hold : ∀ w, Has U .default e w → Has U .default e' w)
    (hnew : ∀ w, Has U .default e' w → Has U .default e w ∨
      ∃ b, w = .bytes b ∧ PlainWord b ∧ ∀ p ∈ L, Tokenizes U .default p.1 → ¬ Shows U p.1 b)
    (it it' : SetIter Tok) (ev : Bool) (r : K × Option (List (EvWord Tok × K))) :
    (scoreGen F (memory Tok) it (e.tokens U .default v) ev
      (desk F (memory Tok) U .default (Clf.new false Dict.empty) steps)).1 = .ok r ↔
    (scoreGen F (memory Tok) it' (e'.tokens U .default v') ev
      (desk F (memory Tok) U .default (Clf.new false Dict.empty) steps)).1 = .ok r := by
  refine C109_known hU rfl F hF steps steps L L h h
    (Multiset.rel_refl_of_refl_on fun p _ => ⟨rfl, fun _ => Iff.rfl⟩) e e' v v' hv hv' ht ht' ?_ it it' ev r
  rintro w ⟨p, hp, x, h1, h2, h3⟩
  refine ⟨hold w, fun hw => (hnew w hw).resolve_right ?_⟩
  rintro ⟨b, rfl, hb, hno⟩
  exact hno p hp ⟨x, h1, h2⟩ ((C107_words U p.1 b hb ⟨x, h1, h2⟩).1 ⟨x, h1, h2, h3⟩)

end

/-! ### Examples -/

/-- The same message with a further word. -/
def longer : Envelope :=
  ⟨plainLib, [(txt "Content-Type", .str (txt "multipart/mixed"))],
    some [textual "red green", textual "gold pink blue"]⟩

theorem longer_visits : Visits asciiMore longer ⟨[], [textual "red green", textual "gold pink blue"]⟩ := by
  have h1 : Mime.textparts asciiMore.toStr longer.root = [textual "red green", textual "gold pink blue"] := by rfl
  have h2 : Mime.octetparts asciiMore.toStr longer.root = [] := by rfl
  unfold Visits
  rw [h1, h2]
  exact ⟨.refl _, .refl _⟩

theorem longer_tokens :
    longer.tokens asciiMore .default ⟨[], [textual "red green", textual "gold pink blue"]⟩ =
      .yield (["content-type:multipart/mixed", "content-type:text/plain", "content-type:text/plain", "from:none",
        "to:none", "cc:none", "sender:none", "reply-to:none", "x-mailer:none", "message-id:invalid", "red",
        "green", "gold", "pink", "blue"].map (fun s => .bytes (txt s))) := by decide

/-- helper -/
theorem has_letter (w : Tok) : Has asciiMore .default letter w ↔
    w ∈ (letter.tokens asciiMore .default ⟨[], [textual "red green", textual "blue pink"]⟩).toks := by
  rw [← mem_wordSet, ← toFinset_tokens letter_visits.1 (by rw [letter_tokens]; rfl), List.mem_toFinset]

/-- helper -/
theorem has_longer (w : Tok) : Has asciiMore .default longer w ↔
    w ∈ (longer.tokens asciiMore .default ⟨[], [textual "red green", textual "gold pink blue"]⟩).toks := by
  rw [← mem_wordSet, ← toFinset_tokens longer_visits (by rw [longer_tokens]; rfl), List.mem_toFinset]

/-- "gold" is new to a classifier that has learned `letter`, everything else is not. -/
example : (∀ w, Known asciiMore .default {(letter, true)} w →
      (Has asciiMore .default letter w ↔ Has asciiMore .default longer w)) ∧
    ¬ Known asciiMore .default {(letter, true)} (.bytes (txt "gold")) ∧
    Has asciiMore .default longer (.bytes (txt "gold")) := by
  refine ⟨?_, ?_, ?_⟩
  · rintro w ⟨p, hp, h⟩
    rw [Multiset.mem_singleton] at hp
    subst hp
    refine ⟨fun _ => ?_, fun _ => h⟩
    rw [has_letter, letter_tokens] at h
    rw [has_longer, longer_tokens]
    rename_i x
    clear x
    revert w
    decide
  · rintro ⟨p, hp, h⟩
    rw [Multiset.mem_singleton] at hp
    subst hp
    rw [has_letter, letter_tokens] at h
    revert h
    decide
  · rw [has_longer, longer_tokens]
    decide

/-- A message that has nothing in common with `letter`. -/
def stranger : Envelope :=
  ⟨plainLib, [(txt "Content-Type", .str (txt "text/html")), (txt "From", .str (txt "a@b")),
    (txt "To", .str (txt "c@d")), (txt "Cc", .str (txt "e@f")), (txt "Sender", .str (txt "g@h")),
    (txt "Reply-To", .str (txt "i@j")), (txt "X-Mailer", .str (txt "elm")), (txt "Message-Id", .str (txt "<1@k>"))],
    none⟩

example : (stranger.tokens asciiMore .default ⟨[], [stranger.root]⟩).stop = none ∧
    (stranger.tokens asciiMore .default ⟨[], [stranger.root]⟩).toks ≠ [] ∧
    ∀ w ∈ (stranger.tokens asciiMore .default ⟨[], [stranger.root]⟩).toks,
      ¬ Known asciiMore .default {(letter, true)} w := by
  refine ⟨by decide, by decide, ?_⟩
  rintro w hw ⟨p, hp, h⟩
  rw [Multiset.mem_singleton] at hp
  subst hp
  rw [has_letter, letter_tokens] at h
  revert w
  decide

end Sb.Props
