import Verif.Model.Fancy
import Verif.Props.Sections
import Verif.Props.TokenHeaders

/-
C94: FANCY_URL_RECOGNITION, said without regular expressions.
-/

set_option linter.unusedSectionVars false

namespace Sb.Props
open Py Py.Re Py.Text Sb.Mail Sb.Strip Sb.Tokenize

/-! ### Specification -/

/-- The beginning of a name that should count as a URL: "www." or "ftp." and one
character more, not a dot. -/
def BareStart (w : List Nat) : Prop :=
  ∃ p c, (p = txt "www." ∨ p = txt "ftp.") ∧ UrlChar c ∧ c ≠ 46 ∧ w = p ++ [c]

/-- A URL or such a name begins after `pre`: at the beginning of a word. -/
def FancyStart (pre w : List Nat) : Prop :=
  (∀ c, pre.getLast? = some c → ¬ WordChar c) ∧ (UrlStart w ∨ BareStart w)

/-- The text without its URLs and their tokens, or `none` if what comes first, after
some URLs, is a name without protocol. -/
inductive FancyUrls : List Nat → Option (List Nat × List Tok) → Prop
  | plain {t : List Nat} : (∀ pre w post, t = pre ++ w ++ post → ¬ FancyStart pre w) →
      FancyUrls t (some (t, []))
  | bare {t pre w post : List Nat} : t = pre ++ w ++ post → FancyStart pre w → BareStart w →
      (∀ pre' w' post', t = pre' ++ w' ++ post' → FancyStart pre' w' → pre.length ≤ pre'.length) →
      FancyUrls t none
  | url {t pre p guts post : List Nat} {ws : List (List Nat)} {r : Option (List Nat × List Tok)} :
      t = pre ++ (p ++ txt "://" ++ guts) ++ post →
      (∀ c, pre.getLast? = some c → ¬ WordChar c) →
      (p = txt "http" ∨ p = txt "https" ∨ p = txt "ftp") → guts ≠ [] → (∀ c ∈ guts, UrlChar c) →
      (∀ c, post.head? = some c → ¬ UrlChar c) →
      (∀ pre' w' post', t = pre' ++ w' ++ post' → FancyStart pre' w' → pre.length ≤ pre'.length) →
      Pieces guts ws → FancyUrls post r →
      FancyUrls t (r.map fun x => (pre ++ x.1,
        .bytes (txt "proto:" ++ p) :: ws.map (fun w => .bytes (txt "url:" ++ w)) ++ x.2))

/-! ### The pattern -/

theorem aheadName_iff {t p : List Nat} {i k : Nat} : Matches t (aheadName p) i k ↔
    k = i ∧ ∃ c, UrlChar c ∧ c ≠ 46 ∧ ReadsAt t i (p ++ [c]) := by
  unfold aheadName
  rw [matches_test, Bool.and_eq_true, List.isPrefixOf_iff_prefix]
  refine and_congr_right fun _ => ?_
  constructor
  · rintro ⟨⟨post, h1⟩, h2⟩
    split at h2
    · rename_i c hc
      simp only [Bool.and_eq_true, bne_iff_ne] at h2
      refine ⟨c, isUrlChar_iff.1 h2.1, h2.2, ?_⟩
      rw [readsAt_append]
      exact ⟨⟨post, h1.symm⟩, readsAt_cons.2 ⟨hc, readsAt_nil _ _⟩⟩
    · cases h2
  · rintro ⟨c, h1, h2, h3⟩
    rw [readsAt_append] at h3
    obtain ⟨⟨post, h3⟩, h4⟩ := h3
    refine ⟨⟨post, h3.symm⟩, ?_⟩
    rw [(readsAt_cons.1 h4).1]
    simp only [Bool.and_eq_true, bne_iff_ne]
    exact ⟨isUrlChar_iff.2 h1, h2⟩

/-- the first character of a URL or of a name is a letter -/
theorem fancy_head {w : List Nat} (h : UrlStart w ∨ BareStart w) :
    ∃ c s, w = c :: s ∧ isWord c = true ∧ isUrlChar c = true := by
  rcases h with ⟨p, c, rfl | rfl | rfl, _, rfl⟩ | ⟨p, c, rfl | rfl, _, _, rfl⟩
  all_goals exact ⟨_, _, rfl, by decide, by decide⟩

theorem matches_of_fancy {t w : List Nat} {k : Nat} (hw : UrlStart w ∨ BareStart w)
    (hb : wordBefore t k = false) (h : ReadsAt t k w) : ∃ j, Matches t fancyRe k j := by
  have hbd : Matches t boundary k k := by
    obtain ⟨c, s, rfl, hc, _⟩ := fancy_head hw
    rw [boundary_start hc h]
    exact ⟨rfl, noWordBefore_iff.1 hb⟩
  have rest : ∀ {c : Nat} {i : Nat}, t[i]? = some c → isUrlChar c = true →
      Matches t (.grp 2 (.plus (.chr isUrlChar))) i (i + 1) := by
    intro c i h1 h2
    rw [matches_grp, matches_plus_chr]
    exact ⟨[c], by simp, rfl, by simpa using h2, readsAt_cons.2 ⟨h1, readsAt_nil _ _⟩⟩
  simp only [fancyRe, Re.cat, matches_seq]
  rcases hw with hw | hw
  · have hm := matches_of_urlText (urlStart_iff.1 hw) h
    simp only [urlRe, Re.cat, matches_seq] at hm
    obtain ⟨j1, h1, j2, h2, h3⟩ := hm
    exact ⟨_, k, hbd, j2, .altL (.seq h1 h2), h3⟩
  · obtain ⟨p, c, hp, hc, hc', rfl⟩ := hw
    have ha : Matches t (aheadName p) k k := aheadName_iff.2 ⟨rfl, c, hc, hc', h⟩
    have hf : ∃ d, t[k]? = some d ∧ isUrlChar d = true := by
      obtain ⟨d, s, he, _, hd⟩ := fancy_head (.inr ⟨p, c, hp, hc, hc', rfl⟩)
      rw [he] at h
      exact ⟨d, (readsAt_cons.1 h).1, hd⟩
    obtain ⟨d, hd1, hd2⟩ := hf
    refine ⟨_, k, hbd, k, .altR ?_, rest hd1 hd2⟩
    rcases hp with rfl | rfl
    · exact .altR ha
    · exact .altL ha

/-- what a match is -/
theorem fancy_matchAt {t : List Nat} {i : Nat} {m : Match} (h : matchAt fancyRe t i = some m) :
    m.start = i ∧ wordBefore t i = false ∧
      ((∃ p g, UrlAt t m p g ∧ m.groups.any (·.1 == 1) = true) ∨
        (m.groups.any (·.1 == 1) = false ∧ ∃ w, BareStart w ∧ ReadsAt t i w)) := by
  refine ⟨(matchAt_some h).1, ?_, ?_⟩
  · -- the character at the position is a letter
    have hm := (matchAt_some h).2
    simp only [fancyRe, Re.cat, matches_seq] at hm
    obtain ⟨k, hb, j, ha, _⟩ := hm
    have hk : k = i := by
      rw [boundary, matches_test] at hb
      exact hb.1
    rw [hk] at hb ha
    have hr : ∃ c s, isWord c = true ∧ ReadsAt t i (c :: s) := by
      rw [matches_alt, matches_alt, matches_seq, aheadName_iff, aheadName_iff] at ha
      rcases ha with ⟨k, h1, _⟩ | ⟨_, c, _, _, hr⟩ | ⟨_, c, _, _, hr⟩
      · rw [matches_grp] at h1
        obtain ⟨p, hp, _, hr⟩ := matches_proto h1
        rcases hp with rfl | rfl | rfl
        · exact ⟨104, _, by decide, hr⟩
        · exact ⟨104, _, by decide, hr⟩
        · exact ⟨102, _, by decide, hr⟩
      · exact ⟨102, _, by decide, hr⟩
      · exact ⟨119, _, by decide, hr⟩
    obtain ⟨c, s, hc, hr⟩ := hr
    exact noWordBefore_iff.2 ((boundary_start hc hr).1 hb).2
  · unfold matchAt at h
    cases hh : (run t fancyRe ⟨i, []⟩).head? with
    | none => rw [hh] at h; cases h
    | some s =>
      rw [hh] at h
      simp only [Option.map_some, Option.some.injEq] at h
      subst h
      simp only [fancyRe, Re.cat] at hh
      rw [run] at hh
      obtain ⟨sb, hsb, hh0⟩ := head_flatMap hh
      have hsb : sb = ⟨i, []⟩ := by
        simp only [boundary, run] at hsb
        split at hsb
        · exact List.mem_singleton.1 hsb
        · cases hsb
      subst hsb
      rw [run] at hh0
      obtain ⟨s2, hs2, hh2⟩ := head_flatMap hh0
      rw [run, List.head?_map] at hh2
      cases hh3 : (run t (Re.plus (.chr isUrlChar)) s2).head? with
      | none => rw [hh3] at hh2; cases hh2
      | some s3 =>
        rw [hh3] at hh2
        simp only [Option.map_some, Option.some.injEq] at hh2
        have hmem : s3 ∈ run t (Re.plus (.chr isUrlChar)) s2 := List.mem_of_head? hh3
        have hg := run_sound hmem
        have hg3 := run_groups (by decide) hmem
        rw [matches_plus_chr] at hg
        obtain ⟨guts, hne, hstop, hchars, hguts⟩ := hg
        have hmax : ∀ c, t[s3.pos]? = some c → isUrlChar c = false := by
          simp only [Re.plus, run] at hh3
          obtain ⟨s4, _, hh4⟩ := head_flatMap hh3
          exact star_chr_head hh4
        rw [run, List.mem_append] at hs2
        rcases hs2 with hs2 | hs2
        · left
          rw [run, List.mem_flatMap] at hs2
          obtain ⟨s1, hs1, hs2⟩ := hs2
          rw [run, List.mem_map] at hs1
          obtain ⟨s0, hs0, rfl⟩ := hs1
          have hp := run_sound hs0
          have hg0 := run_groups (by decide) hs0
          have hl := run_sound hs2
          have hg2 := run_groups (by decide) hs2
          obtain ⟨proto, hproto, hpos, hread⟩ := matches_proto hp
          rw [matches_lit] at hl
          simp only at hpos hl hread
          have hcat : ReadsAt t i (proto ++ txt "://" ++ guts) := by
            rw [readsAt_append, readsAt_append]
            refine ⟨⟨hread, by rw [← hpos]; exact hl.2⟩, ?_⟩
            rw [List.length_append, ← Nat.add_assoc, ← hpos, ← hl.1]
            exact hguts
          have hlen : s3.pos = i + (proto ++ txt "://" ++ guts).length := by
            rw [hstop, hl.1, hpos, List.length_append, List.length_append]; omega
          refine ⟨proto, guts, ⟨?_, ?_, hproto, hne, hchars, ?_, ?_, ?_⟩, ?_⟩
          · exact hcat
          · rw [← hh2]; exact hlen
          · rw [← hh2]; exact hmax
          · simp only [Match.group, ← hh2, hg3, hg2, hg0]
            simp only [List.find?, Nat.reduceBEq, beq_self_eq_true]
            rw [hpos]
            exact readsAt_slice hread
          · simp only [Match.group, ← hh2, hg3, hg2, hg0]
            simp only [List.find?, beq_self_eq_true]
            rw [hstop]
            exact readsAt_slice hguts
          · simp [← hh2, hg3, hg2, hg0]
        · right
          have hbare : s2 = ⟨i, []⟩ ∧ ∃ w, BareStart w ∧ ReadsAt t i w := by
            have hsnd := run_sound (r := .alt (aheadName (txt "ftp.")) (aheadName (txt "www."))) hs2
            rw [matches_alt, aheadName_iff, aheadName_iff] at hsnd
            refine ⟨?_, ?_⟩
            · rw [run, List.mem_append] at hs2
              have one : ∀ (q : List Nat → Nat → Bool) (s s' : St), s' ∈ run t (.test q) s → s' = s := by
                intro q s s' h
                rw [run] at h
                split at h
                · exact List.mem_singleton.1 h
                · cases h
              rcases hs2 with hs2 | hs2
              · exact one _ _ _ hs2
              · exact one _ _ _ hs2
            · rcases hsnd with ⟨_, c, h1, h2, h3⟩ | ⟨_, c, h1, h2, h3⟩
              · exact ⟨_, ⟨_, c, .inr rfl, h1, h2, rfl⟩, h3⟩
              · exact ⟨_, ⟨_, c, .inl rfl, h1, h2, rfl⟩, h3⟩
          obtain ⟨rfl, hw⟩ := hbare
          refine ⟨?_, hw⟩
          simp [← hh2, hg3]

/-! ### The scan -/

/-- looking back within the rest of the text is looking back in the text -/
theorem fancy_context {t pre w post : List Nat} {i : Nat} (hi : i = 0 ∨ AfterUrl t i)
    (he : t.drop i = pre ++ w ++ post) (hw : UrlStart w ∨ BareStart w) :
    wordBefore t (i + pre.length) = false ↔ ∀ c, pre.getLast? = some c → ¬ WordChar c := by
  obtain ⟨c, s, rfl, _, hc⟩ := fancy_head hw
  rcases List.eq_nil_or_concat pre with rfl | ⟨q, d, rfl⟩
  · rcases hi with rfl | hi
    · simp [wordBefore]
    · have : t[i]? = some c := by
        have := (drop_eq_cons_iff (t := t) (i := i) (c := c) (rest := s ++ post)).1 (by simpa using he)
        exact this.1
      rw [hi c this] at hc
      cases hc
  · have hd : t[i + q.length]? = some d := by
      have := congrArg (fun l => l[q.length]?) he
      simp only [List.getElem?_drop] at this
      rw [this]
      simp
    have hsub : i + (q ++ [d]).length - 1 = i + q.length := by simp
    rw [List.concat_eq_append]
    simp only [wordBefore, hsub, wordAt, hd, List.getLast?_append, List.getLast?_singleton,
      Option.some_or, Option.some.injEq, forall_eq']
    rw [← isWord_iff]
    simp

theorem fancy_findStart : fancyUrls.findStart = search fancyRe := rfl
theorem fancy_findEnd : fancyUrls.findEnd = search .eps := rfl
theorem contract_fancy : Contract fancyUrls := contract_ofRe _ (by decide)

theorem fancy_leftmost {t : List Nat} {i k : Nat} (hi : i ≤ t.length) (hc : i = 0 ∨ AfterUrl t i)
    (hno : ∀ k', i ≤ k' → k' < k → ∀ j, ¬ Matches t fancyRe k' j) {pre w post : List Nat}
    (he : t.drop i = pre ++ w ++ post) (hs : FancyStart pre w) : k ≤ i + pre.length := by
  obtain ⟨g1, g2, g3⟩ := (readsAt_iff_split hi).2 ⟨pre, post, he, rfl⟩
  by_contra hlt
  obtain ⟨j, hm⟩ := matches_of_fancy hs.2 ((fancy_context hc he hs.2).2 hs.1) g3
  exact hno _ g1 (by omega) j hm

theorem urlStart_of_guts {p guts : List Nat} (hp : p = txt "http" ∨ p = txt "https" ∨ p = txt "ftp")
    (hne : guts ≠ []) (hg : ∀ c ∈ guts, UrlChar c) :
    ∃ w g, UrlStart w ∧ p ++ txt "://" ++ guts = w ++ g := by
  obtain ⟨c, g, rfl⟩ := List.exists_cons_of_ne_nil hne
  exact ⟨p ++ txt "://" ++ [c], g, ⟨p, c, hp, hg c (by simp), rfl⟩, by simp⟩

theorem analyzeFrom_fancy {t : List Nat} {n : Nat} : ∀ {i : Nat} {kept : List Nat} {toks : List Tok}
      {r : Except Err (List Nat × List Tok)}, i ≤ t.length → (i = 0 ∨ AfterUrl t i) →
      analyzeFrom fancyUrls t n i kept toks = some r →
      ∃ o, FancyUrls (t.drop i) o ∧
        r = match o with
          | none => .error .typeError
          | some (out, new) => .ok (kept ++ out, toks ++ new) := by
  induction n with
  | zero => intro i kept toks r _ _ h; simp [analyzeFrom] at h
  | succ n ih =>
    intro i kept toks r hi hc h
    simp only [analyzeFrom, fancy_findStart, fancy_findEnd] at h
    cases hs : search fancyRe t i with
    | none =>
      rw [hs] at h
      simp only [Option.some.injEq] at h
      refine ⟨some (t.drop i, []), .plain ?_, by simp [← h]⟩
      intro pre w post he hst
      have := fancy_leftmost (k := t.length + 1) hi hc
        (fun k' h1 h2 j => search_none.1 hs k' h1 (by omega) j) he hst
      have hl := congrArg List.length he
      simp only [List.length_append, List.length_drop] at hl
      omega
    | some m =>
      rw [hs] at h
      simp only at h
      obtain ⟨h1, h2, h3, h4⟩ := search_some hs
      obtain ⟨_, hwb, hcase⟩ := fancy_matchAt (searchFrom_some hs).2.2.1
      have hle := h3.le
      rcases hcase with ⟨p, g, hu, hgr⟩ | ⟨hgr, w, hw, hread⟩
      · have htok : fancyUrls.tokenize t m = .ok (urlTokens p g) := by
          show fancyTokenize t m = _
          rw [fancyTokenize, if_pos hgr, urlTokenize, hu.group1, hu.group2, urlTokens, urlChunks_eq]
        rw [htok, search_eps h2] at h
        simp only at h
        obtain ⟨o, hw, ho⟩ := ih h2 (.inr hu.maximal) h
        obtain ⟨pre, post, he, hk⟩ := (readsAt_iff_split hi).1 ⟨h1, by omega, hu.reads⟩
        have hpost : t.drop m.stop = post := by
          rw [hu.stop, hk, Nat.add_assoc, ← List.drop_drop, he, List.drop_left' (by simp)]
        have hsl : slice t i m.start = pre := by
          unfold slice
          rw [he, List.append_assoc, List.take_left' (by omega)]
        have hg : ∀ c ∈ g, UrlChar c := fun c hc => isUrlChar_iff.1 (hu.chars c hc)
        obtain ⟨w, g', hw', hwg⟩ := urlStart_of_guts hu.protocol hu.nonempty hg
        refine ⟨_, .url (p := p) (guts := g) (post := t.drop m.stop) (by rw [hpost]; exact he)
          ?_ hu.protocol hu.nonempty hg ?_ ?_ (pieces_splitBy g) hw, ?_⟩
        · refine (fancy_context hc (w := w) (post := g' ++ post) (by rw [he, hwg]; simp) (.inl hw')).1 ?_
          rw [← hk]; exact hwb
        · intro c hc
          rw [List.head?_drop] at hc
          exact isUrlChar_false.1 (hu.maximal c hc)
        · intro pre' w' post' he' hst
          have := fancy_leftmost hi hc h4 he' hst
          omega
        · rw [ho, hsl]
          cases o with
          | none => rfl
          | some x => simp [urlTokens, List.append_assoc]
      · have htok : fancyUrls.tokenize t m = .error .typeError := by
          show fancyTokenize t m = _
          rw [fancyTokenize, if_neg (by rw [hgr]; simp)]
        rw [htok] at h
        simp only [Option.some.injEq] at h
        obtain ⟨pre, post, he, hk⟩ := (readsAt_iff_split hi).1 ⟨h1, by omega, hread⟩
        refine ⟨none, .bare he ⟨?_, .inr hw⟩ hw ?_, h.symm⟩
        · refine (fancy_context hc he (.inr hw)).1 ?_
          rw [← hk]; exact hwb
        · intro pre' w' post' he' hst
          have := fancy_leftmost hi hc h4 he' hst
          omega

theorem bare_url_false {p : List Nat} {x y w : List Nat} (hw : BareStart w)
    (hp : p = txt "http" ∨ p = txt "https" ∨ p = txt "ftp")
    (h : p ++ txt "://" ++ x = w ++ y) : False := by
  obtain ⟨q, c, rfl | rfl, _, _, rfl⟩ := hw <;> rcases hp with rfl | rfl | rfl <;>
    simp [txt] at h

theorem fancyUrls_unique {t : List Nat} {r r' : Option (List Nat × List Tok)}
    (h : FancyUrls t r) (h' : FancyUrls t r') : r = r' := by
  have start : ∀ {t pre p guts post : List Nat}, t = pre ++ (p ++ txt "://" ++ guts) ++ post →
      (∀ c, pre.getLast? = some c → ¬ WordChar c) →
      (p = txt "http" ∨ p = txt "https" ∨ p = txt "ftp") → guts ≠ [] → (∀ c ∈ guts, UrlChar c) →
      ∃ w rest, t = pre ++ w ++ rest ∧ FancyStart pre w := by
    intro t pre p guts post he hb hp hne hg
    obtain ⟨w, g, hw, e⟩ := urlStart_of_guts hp hne hg
    exact ⟨w, g ++ post, by rw [he, e]; simp, hb, .inl hw⟩
  have split : ∀ {pre pre' x y : List Nat}, pre ++ x = pre' ++ y → pre.length = pre'.length →
      pre = pre' ∧ x = y := fun h hl => List.append_inj h hl
  induction h generalizing r' with
  | plain hn =>
    cases h' with
    | plain _ => rfl
    | bare he hs _ _ => exact absurd hs (hn _ _ _ he)
    | url he hb hp hne hg _ _ _ _ =>
      obtain ⟨w, rest, hw, hs⟩ := start he hb hp hne hg
      exact absurd hs (hn _ _ _ hw)
  | bare he hs hw hf =>
    cases h' with
    | plain hn => exact absurd hs (hn _ _ _ he)
    | bare _ _ _ _ => rfl
    | url he' hb hp hne hg _ hf' _ _ =>
      obtain ⟨w', rest, hw', hs'⟩ := start he' hb hp hne hg
      have hlen := Nat.le_antisymm (hf _ _ _ hw' hs') (hf' _ _ _ he hs)
      obtain ⟨rfl, h2⟩ := split ((List.append_assoc _ _ _).symm.trans
        ((he.symm.trans he').trans (List.append_assoc _ _ _))) hlen
      exact (bare_url_false hw hp (h2.trans (List.append_assoc _ _ _)).symm).elim
  | url he hb hp hne hg hmax hf hpc _ ih =>
    obtain ⟨w, rest, hw, hs⟩ := start he hb hp hne hg
    cases h' with
    | plain hn => exact absurd hs (hn _ _ _ hw)
    | bare he' hs' hw' hf' =>
      have hlen := Nat.le_antisymm (hf _ _ _ he' hs') (hf' _ _ _ hw hs)
      obtain ⟨rfl, h2⟩ := split ((List.append_assoc _ _ _).symm.trans
        ((he.symm.trans he').trans (List.append_assoc _ _ _))) hlen
      exact (bare_url_false hw' hp ((List.append_assoc _ _ _).symm.trans h2)).elim
    | url he' hb' hp' hne' hg' hmax' hf' hpc' hr' =>
      obtain ⟨w', rest', hw', hs'⟩ := start he' hb' hp' hne' hg'
      have hlen := Nat.le_antisymm (hf _ _ _ hw' hs') (hf' _ _ _ hw hs)
      obtain ⟨rfl, h2⟩ := split ((List.append_assoc _ _ _).symm.trans
        ((he.symm.trans he').trans (List.append_assoc _ _ _))) hlen
      obtain ⟨rfl, h3⟩ := protocol_unique hp hp' (by simpa using h2)
      obtain ⟨rfl, rfl⟩ := maximal_unique h3 hg hg' hmax hmax'
      rw [ih hr', pieces_unique hpc hpc']

/-! ### C94 -/

/-- **C94, as the comment of the option says.** A name that begins with "www." or
"ftp." is a URL, with the tokens it has with its protocol in front. -/
def C94Claim : Prop := ∀ w guts, BareStart w → (∀ c ∈ guts, UrlChar c) →
  ∃ p toks, analyze urls (p ++ txt "://" ++ w ++ guts) = some (.ok ([], toks)) ∧
    analyze fancyUrls (w ++ guts) = some (.ok ([], toks))

/-- **C94.** Exactly what the stripper does with the option: a text in which a name
without protocol comes up raises TypeError; otherwise the URLs at beginnings of words
are taken out, and have the usual tokens. -/
theorem C94_scan_partial (t : List Nat) :
    (∀ out toks, analyze fancyUrls t = some (.ok (out, toks)) ↔ FancyUrls t (some (out, toks))) ∧
    (∀ e, analyze fancyUrls t = some (.error e) ↔ e = .typeError ∧ FancyUrls t none) ∧
    ∃ r, FancyUrls t r := by
  obtain ⟨r, hr, _⟩ := C53_terminates fancyUrls contract_fancy t
  obtain ⟨o, hw, ho⟩ := analyzeFrom_fancy (Nat.zero_le _) (.inl rfl) hr
  simp only [List.nil_append, List.drop_zero] at ho hw
  refine ⟨?_, ?_, o, hw⟩
  · intro out toks
    rw [hr, ho]
    constructor
    · intro h
      cases o with
      | none => simp at h
      | some x => simp at h; obtain ⟨rfl, rfl⟩ := h; exact hw
    · intro h
      rw [fancyUrls_unique hw h]
  · intro e
    rw [hr, ho]
    constructor
    · intro h
      cases o with
      | none => simp at h; exact ⟨h.symm, hw⟩
      | some x => simp at h
    · rintro ⟨rfl, h⟩
      rw [fancyUrls_unique hw h]

/-- **C94.** Whatever follows it, a name without protocol at the beginning of a word,
with no URL before it, raises. -/
theorem C94_raises_partial (pre w post : List Nat) (hs : FancyStart pre w) (hw : BareStart w)
    (hfirst : ∀ pre' w' post', pre ++ w ++ post = pre' ++ w' ++ post' → FancyStart pre' w' →
      pre.length ≤ pre'.length) :
    analyze fancyUrls (pre ++ w ++ post) = some (.error .typeError) :=
  ((C94_scan_partial _).2.1 _).2 ⟨rfl, .bare rfl hs hw hfirst⟩

/-- **C94 is false.** -/
theorem C94_claim_false : ¬ C94Claim := by
  intro h
  obtain ⟨p, toks, _, h2⟩ := h (txt "www.x") [] ⟨txt "www.", 120, .inl rfl, by unfold UrlChar Blank; omega,
    by decide, rfl⟩ (by simp)
  have : analyze fancyUrls (txt "www.x" ++ []) = some (.error .typeError) := by decide
  rw [this] at h2
  cases h2

/-- **C94.** If no URL begins within a word and no name comes up, the option changes
nothing. -/
theorem C94_same (t out : List Nat) (toks : List Tok)
    (hb : ∀ pre w post, t = pre ++ w ++ post → UrlStart w → ∀ c, pre.getLast? = some c → ¬ WordChar c)
    (h : analyze fancyUrls t = some (.ok (out, toks))) : analyze urls t = some (.ok (out, toks)) := by
  rw [(C94_scan_partial t).1] at h
  rw [C84_urls]
  generalize hr : some (out, toks) = r at h
  induction h generalizing out toks with
  | plain hn =>
    cases hr
    exact .plain fun pre w post he hw => hn pre w post he ⟨hb pre w post he hw, .inl hw⟩
  | bare _ _ _ _ => cases hr
  | @url t pre p guts post ws r he hbd hp hne hg hmax hf hpc _ ih =>
    cases r with
    | none => cases hr
    | some x =>
      simp only [Option.map_some, Option.some.injEq, Prod.mk.injEq] at hr
      obtain ⟨rfl, rfl⟩ := hr
      refine .cut he hp hne hg hmax (fun pre' w' post' he' hw' => ?_) hpc (ih x.1 x.2 ?_ rfl)
      · exact hf pre' w' post' he' ⟨hb pre' w' post' he' hw', .inl hw'⟩
      · intro pre' w' post' he' hw' c hc
        refine hb (pre ++ (p ++ txt "://" ++ guts) ++ pre') w' post' (by rw [he, he']; simp) hw' c ?_
        rw [List.getLast?_append, hc]; rfl

/-- **C94.** A decoded text in which such a name comes up cannot be tokenized; a text
for which the option changes nothing has its usual tokens. -/
theorem C94_body_partial (t : List Nat) :
    (FancyUrls (lower t) none → (fancyBody t).stop ≠ none) ∧
    (∀ out toks, FancyUrls (lower t) (some (out, toks)) →
      (∀ pre w post, lower t = pre ++ w ++ post → UrlStart w →
        ∀ c, pre.getLast? = some c → ¬ WordChar c) →
      fancyBody t = bodyBytes t) := by
  constructor
  · intro h
    have ha := ((C94_scan_partial (lower t)).2.1 .typeError).2 ⟨rfl, h⟩
    unfold fancyBody
    by_cases he : HasEntity t
    · rw [subStr_error (occurs_numeric.2 he)]
      simp [Gen.raise]
    · rw [subStr_ok (fun ho => he (occurs_numeric.1 ho))]
      dsimp only
      rw [Ne, andThen_stop_none, not_and]
      intro _
      by_cases hg : HasBegin (lower t)
      · unfold crack
        rw [(strippers_fine _).2.1 (occurs_begin.2 hg)]
        simp [Gen.raise]
      · rw [crack_ok ((strippers_fine _).2.2 (fun ho => hg (occurs_begin.1 ho)))]
        unfold crack
        rw [ha]
        simp [Gen.raise]
  · intro out toks h hb
    have ha := ((C94_scan_partial (lower t)).1 out toks).2 h
    have hu := C94_same _ _ _ hb ha
    unfold fancyBody bodyBytes crackAll
    by_cases he : HasEntity t
    · rw [subStr_error (occurs_numeric.2 he)]
    · rw [subStr_ok (fun ho => he (occurs_numeric.1 ho))]
      dsimp only
      congr 1
      by_cases hg : HasBegin (lower t)
      · unfold crack
        rw [(strippers_fine _).2.1 (occurs_begin.2 hg)]
      · rw [crack_ok ((strippers_fine _).2.2 (fun ho => hg (occurs_begin.1 ho))),
          crack_ok ((strippers_fine _).2.2 (fun ho => hg (occurs_begin.1 ho)))]
        rw [crack_ok ha, crack_ok hu]

/-- A name in a URL is no problem; the second URL does not begin a word. -/
example : analyze fancyUrls (txt "at http://www.a/c, xhttp://d") = some (.ok (txt "at  xhttp://d",
    [.bytes (txt "proto:http"), .bytes (txt "url:www"), .bytes (txt "url:a"), .bytes (txt "url:c"),
     .bytes (txt "url:")])) := by decide
/-- A name on its own is; "wwww." is not such a name, nor "www.." -/
example : analyze fancyUrls (txt "wwww.a www.. www.a") = some (.error .typeError) := by decide
example : FancyUrls (txt "wwww.a www..") (some (txt "wwww.a www..", [])) :=
  ((C94_scan_partial _).1 _ _).1 (by decide)

end Sb.Props
