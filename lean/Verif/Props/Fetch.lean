import Verif.Model.Fetch
import Verif.Props.TokenMessage

/-
C103: the tokens of a web page.
-/

set_option linter.unusedSectionVars false

namespace Sb.Props
open Py Py.Text Sb.Mail Sb.Net Sb.Strip Sb.Tokenize Sb.Slurp

/-- Running `m` does not change what is known of the URL `u`. -/
def Leaves (u : Txt) {α : Type} (m : M Cache α) : Prop :=
  ∀ c, knownBad (m c).2.bad u = knownBad c.bad u ∧ (m c).2.http.get? u = c.http.get? u

theorem Leaves.bind {u : Txt} {α β : Type} {m : M Cache α} {f : α → M Cache β}
    (hm : Leaves u m) (hf : ∀ a, Leaves u (f a)) : Leaves u (m >>= f) := by
  intro c
  have h := hm c
  rw [M.bind_run]
  rcases hc : m c with ⟨r | a, c'⟩
  · rw [hc] at h; exact h
  · rw [hc] at h
    have h2 := hf a c'
    exact ⟨h2.1.trans h.1, h2.2.trans h.2⟩

theorem leaves_pure {u : Txt} {α : Type} (a : α) : Leaves u (pure a) := fun _ => ⟨rfl, rfl⟩
theorem leaves_raise {u : Txt} {α : Type} (e : Err) : Leaves u (M.raise e : M Cache α) := fun _ => ⟨rfl, rfl⟩
theorem leaves_get {u : Txt} : Leaves u M.get := fun _ => ⟨rfl, rfl⟩
theorem leaves_net {u : Txt} (f : List Op → List Op) :
    Leaves u (M.modify (fun c => { c with net := f c.net })) := fun _ => ⟨rfl, rfl⟩

theorem knownBad_map_other (bad : List (Txt × List Txt)) (name url u : Txt) (h : url ≠ u) :
    knownBad (bad.map (fun e => if e.1 = name then (e.1, e.2 ++ [url]) else e)) u = knownBad bad u := by
  induction bad with
  | nil => rfl
  | cons e bad ih =>
    have hu : ¬ u = url := fun x => h x.symm
    unfold knownBad at ih ⊢
    rw [List.map_cons, List.find?_cons, List.find?_cons]
    by_cases he : e.1 = name
    · by_cases hc : u ∈ e.2
      · simp [he, hc]
      · simpa [he, hc, hu] using ih
    · by_cases hc : u ∈ e.2
      · simp [he, hc]
      · simpa [he, hc] using ih

theorem knownBad_map_self (bad : List (Txt × List Txt)) (name url : Txt) (h : knownBad bad url = none)
    (ha : bad.any (fun e => e.1 = name) = true) :
    knownBad (bad.map (fun e => if e.1 = name then (e.1, e.2 ++ [url]) else e)) url = some name := by
  induction bad with
  | nil => simp at ha
  | cons e bad ih =>
    unfold knownBad at ih h ⊢
    rw [List.find?_cons] at h
    by_cases hc : url ∈ e.2
    · simp [hc] at h
    · have h' : Option.map Prod.fst (List.find? (fun e => e.2.contains url) bad) = none := by
        simpa [hc] using h
      rw [List.map_cons, List.find?_cons]
      by_cases he : e.1 = name
      · simp [he]
      · have ha' : bad.any (fun e => e.1 = name) = true := by simpa [he] using ha
        simpa [he, hc] using ih h' ha'

theorem leaves_addBad {u name url : Txt} (h : url ≠ u) : Leaves u (addBad name url) := by
  intro c
  unfold addBad
  split
  · exact ⟨knownBad_map_other _ _ _ _ h, rfl⟩
  · exact ⟨rfl, rfl⟩

theorem leaves_giveUp {u name url : Txt} (h : url ≠ u) : Leaves u (giveUp name url) :=
  (leaves_addBad h).bind fun _ => leaves_pure _

theorem leaves_http {u url v : Txt} (h : url ≠ u) :
    Leaves u (M.modify (fun c : Cache => { c with http := c.http.set url v })) :=
  fun c => ⟨rfl, Dict.get?_set_ne c.http v h⟩

theorem leaves_request {U : StrMore} {w : World} {proto url u : Txt} (h : url ≠ u) :
    Leaves u (request U w proto url) := by
  unfold request
  refine (leaves_net (· ++ [_])).bind fun _ => ?_
  split
  · exact leaves_raise _
  · split
    · exact (leaves_http h).bind fun _ => leaves_pure _
    · exact leaves_giveUp h
  · exact leaves_giveUp h
  · split
    · exact leaves_raise _
    · exact leaves_giveUp h

theorem leaves_retrieve {U : StrMore} {w : World} {px proto url u : Txt} (h : url ≠ u) :
    Leaves u (retrieve U w px proto url) := by
  unfold retrieve
  refine leaves_get.bind fun c => ?_
  split
  · split
    · exact leaves_raise _
    · exact leaves_pure _
  · split
    · exact leaves_giveUp h
    · exact leaves_request h

theorem leaves_resolve {U : StrMore} {w : World} {px proto url u : Txt} (h : url ≠ u) :
    Leaves u (resolve U w px proto url) := by
  unfold resolve
  split
  · exact leaves_raise _
  · refine (leaves_net (· ++ [_])).bind fun _ => ?_
    split
    · exact leaves_giveUp h
    · exact leaves_raise _
    · exact leaves_retrieve h

theorem leaves_slurp {U : StrMore} {ob : Bool} {w : World} {px proto url u : Txt} (h : url ≠ u) :
    Leaves u (slurp U ob px w proto url) := by
  unfold slurp
  split
  · exact leaves_pure _
  · split
    · exact leaves_raise _
    · refine leaves_get.bind fun c => ?_
      split
      · exact leaves_pure _
      · split
        · exact leaves_pure _
        · exact leaves_resolve h

/-- A URL whose fate is known stays as it is. -/
theorem slurp_known {U : StrMore} {ob : Bool} {w : World} {px proto url u : Txt} {c : Cache}
    (h : knownBad c.bad u ≠ none ∨ c.http.get? u ≠ none) :
    knownBad (slurp U ob px w proto url c).2.bad u = knownBad c.bad u ∧
    (slurp U ob px w proto url c).2.http.get? u = c.http.get? u := by
  by_cases hu : url = u
  · subst hu
    unfold slurp
    split
    · exact ⟨rfl, rfl⟩
    · split
      · exact ⟨rfl, rfl⟩
      · rw [M.bind_run]
        simp only [M.get]
        cases hb : knownBad c.bad url with
        | some k => exact ⟨hb, rfl⟩
        | none =>
          cases hh : c.http.get? url with
          | some t => exact ⟨hb, hh⟩
          | none => simp [hb, hh] at h
  · exact leaves_slurp hu c

theorem slurps_known {U : StrMore} {ob : Bool} {px u : Txt} (calls : List (World × Txt × Txt)) :
    ∀ {c : Cache}, (knownBad c.bad u ≠ none ∨ c.http.get? u ≠ none) →
      knownBad (slurps U ob px c calls).bad u = knownBad c.bad u ∧
      (slurps U ob px c calls).http.get? u = c.http.get? u := by
  induction calls with
  | nil => exact fun _ => ⟨rfl, rfl⟩
  | cons x calls ih =>
    intro c h
    have h1 := slurp_known (U := U) (ob := ob) (w := x.1) (px := px) (proto := x.2.1) (url := x.2.2) h
    have h2 := ih (c := (slurp U ob px x.1 x.2.1 x.2.2 c).2) (by rw [h1.1, h1.2]; exact h)
    exact ⟨h2.1.trans h1.1, h2.2.trans h1.2⟩

theorem slurp_of_bad {U : StrMore} {w : World} {px proto url k : Txt} {c : Cache} (hu : url ≠ [])
    (h : knownBad c.bad url = some k) :
    slurp U false px w proto url c = (.ok (.list [.str k]), c) := by
  unfold slurp
  simp [hu, M.bind_run, M.get, h]

theorem slurp_of_http {U : StrMore} {w : World} {px proto url t : Txt} {c : Cache} (hu : url ≠ [])
    (hb : knownBad c.bad url = none) (h : c.http.get? url = some t) :
    slurp U false px w proto url c = (.ok (.str t), c) := by
  unfold slurp
  simp [hu, M.bind_run, M.get, hb, h]

theorem giveUp_ok {name url : Txt} {c c₁ : Cache} {r : Slurped} (hb : knownBad c.bad url = none)
    (h : giveUp name url c = (.ok r, c₁)) :
    r = .list [.str name] ∧ knownBad c₁.bad url = some name := by
  unfold giveUp at h
  rw [M.bind_run] at h
  unfold addBad at h
  by_cases ha : c.bad.any (fun e => e.1 = name) = true
  · rw [if_pos ha] at h
    injection h with h1 h2
    injection h1 with h1
    subst h1 h2
    exact ⟨rfl, knownBad_map_self _ _ _ hb ha⟩
  · rw [if_neg ha] at h
    injection h with h1 h2
    cases h1

/-- What a call that returns leaves behind. -/
def Noted (url : Txt) (r : Slurped) (c : Cache) : Prop :=
  (∃ k, r = .list [.str k] ∧ knownBad c.bad url = some k) ∨
  (∃ n, r = .list [.str (txt "url:http_" ++ n)] ∧ knownBad c.bad url = none ∧
    c.http.get? url = some (txt "url:http_" ++ n))

theorem request_noted {U : StrMore} {w : World} {proto url : Txt} {c c₁ : Cache} {r : Slurped}
    (hb : knownBad c.bad url = none) (h : request U w proto url c = (.ok r, c₁)) : Noted url r c₁ := by
  unfold request at h
  rw [M.bind_run] at h
  simp only [M.modify] at h
  have give : ∀ {name : Txt}, giveUp name url
      { c with net := c.net ++ [.request (proto ++ txt "://" ++ url)] } = (.ok r, c₁) → Noted url r c₁ := by
    intro name hg
    have := giveUp_ok (by exact hb) hg
    exact .inl ⟨name, this⟩
  cases hf : w.fetch (proto ++ txt "://" ++ url) with
  | raised e => simp only [hf, M.raise] at h; injection h with h1; cases h1
  | failed text =>
    cases hn : httpError U.digit text with
    | some n =>
      simp only [hf, hn] at h
      rw [M.bind_run] at h
      injection h with h1 h2
      injection h1 with h1
      subst h1 h2
      exact .inr ⟨n, rfl, hb, Dict.get?_set_self ..⟩
    | none => simp only [hf, hn] at h; exact give h
  | page ct =>
    cases ct with
    | none => simp only [hf] at h; exact give h
    | some ct =>
      simp only [hf] at h
      by_cases hc : (txt "text/html").isPrefixOf ct = true
      · rw [if_pos hc] at h; injection h with h1; cases h1
      · rw [if_neg hc] at h; exact give h

theorem slurp_noted {U : StrMore} {w : World} {px proto url : Txt} {c c₁ : Cache} {ts : List Tok}
    (hu : url ≠ []) (hp : c.pages (urlKey U.word url) = none)
    (h : slurp U false px w proto url c = (.ok (.list ts), c₁)) : Noted url (.list ts) c₁ := by
  unfold slurp at h
  rw [if_neg hu] at h
  simp only [Bool.false_eq_true, if_false] at h
  rw [M.bind_run] at h
  simp only [M.get] at h
  cases hb : knownBad c.bad url with
  | some k =>
    simp only [hb] at h
    injection h with h1 h2
    injection h1 with h1
    subst h2
    exact .inl ⟨k, h1.symm, hb⟩
  | none =>
    cases hh : c.http.get? url with
    | some t =>
      simp only [hb, hh] at h
      injection h with h1
      injection h1 with h1
      cases h1
    | none =>
      simp only [hb, hh] at h
      unfold resolve at h
      cases hd : domainPort U.digit url with
      | none => simp only [hd] at h; injection h with h1; cases h1
      | some dp =>
        obtain ⟨d, p⟩ := dp
        simp only [hd] at h
        rw [M.bind_run] at h
        simp only [M.modify] at h
        cases hr : w.resolve d p with
        | some e =>
          simp only [hr] at h
          cases e
          case osError => exact .inl ⟨_, giveUp_ok (by exact hb) h⟩
          all_goals (injection h with h1; cases h1)
        | none =>
          simp only [hr] at h
          unfold retrieve at h
          rw [M.bind_run] at h
          simp only [M.get, hp] at h
          by_cases hx : ((splitOn 46 url).getLast?.getD []) ∈ notHtmlNames
          · rw [if_pos hx] at h
            exact .inl ⟨_, giveUp_ok (by exact hb) h⟩
          · rw [if_neg hx] at h
            exact request_noted (by exact hb) h

/-! ### A page that cannot be had -/

/-- What is said of a URL whose page cannot be had is said again at every later call, without
a use of the network. -/
def C103Claim (U : StrMore) : Prop :=
  ∀ (webPrefix : Txt) (c c₁ : Cache) (w w' : World) (proto proto' url : Txt) (ts : List Tok)
    (calls : List (World × Txt × Txt)),
    c.pages (urlKey U.word url) = none →
    slurp U false webPrefix w proto url c = (.ok (.list ts), c₁) →
    ∃ r, slurp U false webPrefix w' proto' url (slurps U false webPrefix c₁ calls) =
      (.ok r, slurps U false webPrefix c₁ calls) ∧ r.items = ts

/-- It is, whatever is called between, unless the answer was a HTTP error. -/
theorem C103_remembers_partial (U : StrMore) (webPrefix : Txt) (c c₁ : Cache) (w w' : World)
    (proto proto' url : Txt) (ts : List Tok) (calls : List (World × Txt × Txt))
    (hp : c.pages (urlKey U.word url) = none)
    (h : slurp U false webPrefix w proto url c = (.ok (.list ts), c₁))
    (hn : ∀ n, ts ≠ [.str (txt "url:http_" ++ n)]) :
    slurp U false webPrefix w' proto' url (slurps U false webPrefix c₁ calls) =
      (.ok (.list ts), slurps U false webPrefix c₁ calls) := by
  by_cases hu : url = []
  · subst hu
    unfold slurp at h ⊢
    rw [if_pos rfl] at h ⊢
    injection h with h1
    injection h1 with h1
    rw [← h1]
    rfl
  · rcases slurp_noted hu hp h with ⟨k, hk, hb⟩ | ⟨n, hk, _⟩
    · rw [hk]
      refine slurp_of_bad hu ?_
      rw [(slurps_known calls (.inl (by rw [hb]; simp))).1, hb]
    · injection hk with hk
      exact absurd hk (hn n)

/-- After a HTTP error every later call gives the characters of the token, not the token. -/
theorem C103_http_error (U : StrMore) (webPrefix : Txt) (c c₁ : Cache) (w w' : World)
    (proto proto' url n : Txt) (calls : List (World × Txt × Txt))
    (hp : c.pages (urlKey U.word url) = none) (hu : url ≠ [])
    (hb : ∀ e ∈ c₁.bad, url ∉ e.2)
    (h : slurp U false webPrefix w proto url c = (.ok (.list [.str (txt "url:http_" ++ n)]), c₁)) :
    ∃ r, slurp U false webPrefix w' proto' url (slurps U false webPrefix c₁ calls) =
      (.ok r, slurps U false webPrefix c₁ calls) ∧
      r.items = (txt "url:http_" ++ n).map (fun ch => .str [ch]) := by
  have hb' : knownBad c₁.bad url = none := by
    unfold knownBad
    simpa using fun a b hab => hb (a, b) hab
  rcases slurp_noted hu hp h with ⟨k, hk, hb2⟩ | ⟨m, hk, _, hh⟩
  · rw [hb'] at hb2; cases hb2
  · injection hk with hk
    injection hk with hk
    injection hk with hk
    refine ⟨.str (txt "url:http_" ++ n), slurp_of_http hu ?_ ?_, rfl⟩
    · rw [(slurps_known calls (.inr (by rw [hh]; simp))).1, hb']
    · rw [(slurps_known calls (.inr (by rw [hh]; simp))).2, hh, hk]

/-- The caches as the set-up makes them, slurping.py l.243-255, with no page. -/
def freshCache : Cache :=
  ⟨[(txt "url:non_resolving", []), (txt "url:non_html", []), (txt "url:unknown_error", [])],
    Dict.empty, fun _ => none, []⟩

/-- A network where every page is missing. -/
def missing : World := ⟨fun _ _ => none, fun _ => .failed (txt "HTTP Error 404: Not Found")⟩

/-- A str library for the examples: ASCII. -/
def fetchStr (U : Str) : StrMore :=
  { U with digit := fun c => 48 ≤ c && c ≤ 57, ilog2 := fun _ => 0 }

theorem missing_run (U : Str) : slurp (fetchStr U) false [] missing (txt "http") (txt "a.com") freshCache =
    (.ok (.list [.str (txt "url:http_404")]),
      { freshCache with http := Dict.empty.set (txt "a.com") (txt "url:http_404"),
                        net := [.resolve (txt "a.com") none, .request (txt "http://a.com")] }) := by
  rfl

theorem C103_claim_false (U : Str) : ¬ C103Claim (fetchStr U) := by
  intro h
  obtain ⟨r, h1, h2⟩ := h [] freshCache _ missing missing (txt "http") (txt "http") (txt "a.com") _ [] rfl
    (missing_run U)
  obtain ⟨r', h3, h4⟩ := C103_http_error (fetchStr U) [] freshCache _ missing missing (txt "http")
    (txt "http") (txt "a.com") (txt "404") [] rfl (by decide) (by decide) (missing_run U)
  rw [h1] at h3
  injection h3 with h3
  injection h3 with h3
  subst h3
  rw [h2] at h4
  revert h4
  decide

/-! ### A page that can be had -/

theorem last_split {c : Nat} : ∀ {t x : List Nat}, (splitOn c t).getLast? = some x → t = x ∨ (c :: x) <:+ t
  | [], x, h => by
    left
    simpa [splitOn] using h
  | y :: rest, x, h => by
    have hj := join_split c rest
    have hi := last_split (c := c) (t := rest) (x := x)
    rw [splitOn] at h
    cases hs : splitOn c rest with
    | nil => exact absurd hs (splitOn_ne_nil c rest)
    | cons p ps =>
      rw [hs] at h hi hj
      simp only at h
      by_cases hy : y = c
      · rw [if_pos hy] at h
        right
        rw [List.getLast?_cons_cons] at h
        rcases hi h with hr | hr
        · rw [hy, hr]; exact List.suffix_refl _
        · exact hr.trans (List.suffix_cons y rest)
      · rw [if_neg hy] at h
        cases ps with
        | nil =>
          left
          simp only [joinWith] at hj
          simpa [hj] using h
        | cons q qs =>
          right
          rw [List.getLast?_cons_cons] at h
          have h' : (p :: q :: qs).getLast? = some x := by rw [List.getLast?_cons_cons]; exact h
          rcases hi h' with hr | hr
          · exfalso
            have hx : c ∉ x := by
              have : x ∈ splitOn c rest := by rw [hs]; exact List.mem_of_getLast? h'
              exact not_mem_of_mem_splitOn this
            rw [hr, splitOn_of_not_mem hx] at hs
            simp at hs
          · exact hr.trans (List.suffix_cons y rest)

/-- A page that could be fetched is no use: the call raises, and nothing is remembered, so
the next call fetches it again. -/
theorem C103_success_raises (U : StrMore) (webPrefix : Txt) (c : Cache) (w : World)
    (proto url d more : Txt) (p : Option Txt) (hu : url ≠ [])
    (hb : ∀ e ∈ c.bad, url ∉ e.2) (hh : c.http.get? url = none)
    (hp : c.pages (urlKey U.word url) = none)
    (hd : domainPort U.digit url = some (d, p)) (hr : w.resolve d p = none)
    (hx : ∀ x ∈ [txt "jpg", txt "gif", txt "png", txt "css", txt "js"], ¬ (txt "." ++ x) <:+ url)
    (hx' : url ∉ [txt "jpg", txt "gif", txt "png", txt "css", txt "js"])
    (hf : w.fetch (proto ++ txt "://" ++ url) = .page (some (txt "text/html" ++ more))) :
    slurp U false webPrefix w proto url c =
      (.error .attributeError,
        { c with net := c.net ++ [.resolve d p, .request (proto ++ txt "://" ++ url)] }) := by
  have hb' : knownBad c.bad url = none := by
    unfold knownBad
    simpa using fun a b hab => hb (a, b) hab
  have hl : ((splitOn 46 url).getLast?.getD []) ∉ notHtmlNames := by
    cases hg : (splitOn 46 url).getLast? with
    | none => decide
    | some x =>
      intro hm
      rcases last_split hg with he | he
      · exact hx' (by rw [he]; exact hm)
      · exact hx x hm he
  have hq : (txt "text/html").isPrefixOf (txt "text/html" ++ more) = true :=
    List.isPrefixOf_iff_prefix.2 (List.prefix_append _ _)
  unfold slurp
  simp only [hu, if_false, Bool.false_eq_true, M.bind_run, M.get, hb', hh, resolve, hd, M.modify, hr,
    retrieve, hp, hl, request, hf, hq, if_true, M.raise]
  simp

/-- A page in the cache: its tokens as str, with the prefix; the name is resolved, nothing is
asked for. -/
theorem C103_cached_page (U : StrMore) (webPrefix : Txt) (c : Cache) (w : World)
    (proto url d : Txt) (p : Option Txt) (g : Gen) (hu : url ≠ [])
    (hb : ∀ e ∈ c.bad, url ∉ e.2) (hh : c.http.get? url = none)
    (hp : c.pages (urlKey U.word url) = some g) (hg : g.stop = none)
    (hd : domainPort U.digit url = some (d, p)) (hr : w.resolve d p = none) :
    slurp U false webPrefix w proto url c =
      (.ok (.list (g.toks.map (fun t => .str (webPrefix ++ showWord t)))),
        { c with net := c.net ++ [.resolve d p] }) := by
  have hb' : knownBad c.bad url = none := by
    unfold knownBad
    simpa using fun a b hab => hb (a, b) hab
  unfold slurp
  simp only [hu, if_false, Bool.false_eq_true, M.bind_run, M.get, hb', hh, resolve, hd, M.modify, hr,
    retrieve, hp, hg]
  rfl

/-- Two URLs have the same page in the cache exactly if they differ only in characters that
are no letters or digits. -/
theorem C103_same_key (word : Nat → Bool) (u v : Txt) :
    urlKey word u = urlKey word v ↔
      List.Forall₂ (fun a b => a = b ∨
        ((a = 95 ∨ word a = false) ∧ (b = 95 ∨ word b = false))) u v := by
  unfold urlKey
  induction u generalizing v with
  | nil => cases v <;> simp
  | cons a u ih =>
    cases v with
    | nil => simp
    | cons b v =>
      rw [List.map_cons, List.map_cons, List.cons.injEq, ih, List.forall₂_cons]
      refine and_congr_left fun _ => ?_
      cases ha : word a <;> cases hb : word b <;> simp
      · constructor
        · intro h; exact .inr h.symm
        · rintro (h | h)
          · rw [h, hb] at ha; cases ha
          · exact h.symm
      · intro h
        rw [h, hb] at ha
        cases ha
      · rintro h1 h2
        rw [h1, h2]

/-! ### Pages and mail -/

/-- What `m` returns is made of str. -/
def Strs (m : M Cache Slurped) : Prop :=
  ∀ c r c₁, m c = (.ok r, c₁) → ∀ k ∈ r.items, ∃ s, k = .str s

theorem Strs.bind {α : Type} {m : M Cache α} {f : α → M Cache Slurped} (hf : ∀ a, Strs (f a)) :
    Strs (m >>= f) := by
  intro c r c₁ h
  rw [M.bind_run] at h
  rcases hc : m c with ⟨e | a, c'⟩
  · rw [hc] at h; injection h with h1; cases h1
  · rw [hc] at h; exact hf a c' r c₁ h

theorem strs_raise (e : Err) : Strs (M.raise e) := by
  intro c r c₁ h
  injection h with h1
  cases h1

theorem strs_pure (ts : List Txt) : Strs (pure (.list (ts.map .str))) := by
  intro c r c₁ h k hk
  injection h with h1
  injection h1 with h1
  subst h1
  obtain ⟨t, _, ht⟩ := List.mem_map.1 hk
  exact ⟨t, ht.symm⟩

theorem strs_chars (t : Txt) : Strs (pure (.str t)) := by
  intro c r c₁ h k hk
  injection h with h1
  injection h1 with h1
  subst h1
  obtain ⟨t, _, ht⟩ := List.mem_map.1 hk
  exact ⟨[t], ht.symm⟩

theorem strs_giveUp (name url : Txt) : Strs (giveUp name url) := Strs.bind fun _ => strs_pure [name]

theorem strs_slurp (U : StrMore) (ob : Bool) (px : Txt) (w : World) (proto url : Txt) :
    Strs (slurp U ob px w proto url) := by
  unfold slurp
  split
  · exact strs_pure [_]
  · split
    · exact strs_raise _
    · refine Strs.bind fun c => ?_
      split
      · exact strs_pure [_]
      · split
        · exact strs_chars _
        · unfold resolve
          split
          · exact strs_raise _
          · refine Strs.bind fun _ => ?_
            split
            · exact strs_giveUp _ _
            · exact strs_raise _
            · unfold retrieve
              refine Strs.bind fun c => ?_
              split
              · rename_i g _
                split
                · exact strs_raise _
                · have := strs_pure (g.toks.map (fun t => px ++ showWord t))
                  rwa [List.map_map] at this
              · split
                · exact strs_giveUp _ _
                · unfold request
                  refine Strs.bind fun _ => ?_
                  split
                  · exact strs_raise _
                  · split
                    · exact Strs.bind fun _ => strs_pure [_]
                    · exact strs_giveUp _ _
                  · exact strs_giveUp _ _
                  · split
                    · exact strs_raise _
                    · exact strs_giveUp _ _

theorem convert_bytes : ∀ (l : List Tok) (stop : Option Err), ∀ k ∈ (convertToks stop l).toks, ∃ b, k = .bytes b
  | [], _, k, h => by simp [convertToks] at h
  | t :: ts, stop, k, h => by
    unfold convertToks at h
    cases hb : tokBytes t with
    | error e => simp [hb, Gen.raise] at h
    | ok b =>
      simp only [hb] at h
      rw [yield_andThen] at h
      simp only [List.cons_append, List.nil_append, List.mem_cons] at h
      rcases h with h | h
      · exact ⟨b, h⟩
      · exact convert_bytes ts stop k h

/-- No token of a page is a token of a mail, with whatever prefix: the tokenizer gives bytes,
and these are str. -/
theorem C103_apart (U : StrMore) (onlyBase : Bool) (webPrefix : Txt) (c c₁ : Cache) (w : World)
    (proto url : Txt) (r : Slurped) (g : Gen)
    (h : slurp U onlyBase webPrefix w proto url c = (.ok r, c₁)) :
    ∀ k ∈ r.items, k ∉ (convertToBytes g).toks := by
  intro k hk hm
  obtain ⟨s, hs⟩ := strs_slurp U onlyBase webPrefix w proto url c r c₁ h k hk
  obtain ⟨b, hb⟩ := convert_bytes _ _ k hm
  rw [hs] at hb
  cases hb

/-! ### What is said -/

/-- The domain is what stands before the first colon, slash or backslash; the port is a number
right after it. -/
theorem C103_domain (digit : Nat → Bool) (d rest : Txt) (hd : d ≠ [])
    (hs : ∀ a ∈ d, a ≠ 58 ∧ a ≠ 47 ∧ a ≠ 92) :
    (∀ a, (a = 47 ∨ a = 92) → domainPort digit (d ++ a :: rest) = some (d, none)) ∧
    domainPort digit d = some (d, none) ∧
    (∀ n, n ≠ [] → (∀ a ∈ n, digit a = true) → (∀ a, rest.head? = some a → digit a = false) →
      domainPort digit (d ++ 58 :: (n ++ rest)) = some (d, some n)) ∧
    ((∀ a, rest.head? = some a → digit a = false) →
      domainPort digit (d ++ 58 :: rest) = some (d, none)) := by
  obtain ⟨x, d', rfl⟩ := List.exists_cons_of_ne_nil hd
  have key : ∀ a ∈ x :: d', (!(decide (a = 58) || decide (a = 47) || decide (a = 92))) = true := by
    intro a ha
    have := hs a ha
    simp [this.1, this.2.1, this.2.2]
  have ht : ∀ a r, (a = 58 ∨ a = 47 ∨ a = 92) →
      ((x :: d') ++ a :: r).takeWhile (fun c => !(decide (c = 58) || decide (c = 47) || decide (c = 92))) = x :: d' ∧
      ((x :: d') ++ a :: r).dropWhile (fun c => !(decide (c = 58) || decide (c = 47) || decide (c = 92))) = a :: r := by
    intro a r ha
    rw [List.takeWhile_append_of_pos key, List.dropWhile_append_of_pos key]
    rcases ha with h | h | h <;> subst h <;> simp
  have hdig : ∀ (n : Txt), (∀ a ∈ n, digit a = true) → (∀ a, rest.head? = some a → digit a = false) →
      (n ++ rest).takeWhile digit = n := by
    intro n hn hr
    rw [List.takeWhile_append_of_pos hn]
    cases rest with
    | nil => simp
    | cons b rest => simp [hr b rfl]
  refine ⟨?_, ?_, ?_, ?_⟩
  · intro a ha
    have h := ht a rest (.inr ha)
    unfold domainPort
    simp only [h.1, h.2]
    rcases ha with h | h <;> subst h <;> rfl
  · have h1 := List.takeWhile_eq_self_iff.2 key
    have h2 := List.dropWhile_eq_nil_iff.2 key
    unfold domainPort
    simp only [h1, h2]
  · intro n hn hn' hr
    have h := ht 58 (n ++ rest) (.inl rfl)
    unfold domainPort
    simp only [h.1, h.2, hdig n hn' hr, hn, if_false]
  · intro hr
    have h := ht 58 rest (.inl rfl)
    have h0 := hdig [] (by simp) hr
    rw [List.nil_append] at h0
    unfold domainPort
    simp only [h.1, h.2, h0, if_true]

/-- The text of an exception shows a HTTP error exactly if it begins with `HTTP Error ` and a
number. -/
theorem C103_http_text (digit : Nat → Bool) (text n : Txt) :
    httpError digit text = some n ↔
      n ≠ [] ∧ (∀ a ∈ n, digit a = true) ∧
        ∃ rest, text = txt "HTTP Error " ++ n ++ rest ∧ ∀ a, rest.head? = some a → digit a = false := by
  constructor
  · intro h
    unfold httpError at h
    split at h
    · rename_i hp
      obtain ⟨r, rfl⟩ := List.isPrefixOf_iff_prefix.1 hp
      have hdrop : (txt "HTTP Error " ++ r).drop 11 = r := rfl
      rw [hdrop] at h
      split at h
      · cases h
      · rename_i m hm
        injection h with h
        subst h
        refine ⟨fun he => hm he, fun a ha => List.mem_takeWhile_imp ha, r.dropWhile digit, ?_, ?_⟩
        · rw [List.append_assoc, List.takeWhile_append_dropWhile]
        · intro a ha
          have := List.head?_dropWhile_not digit r
          rw [ha] at this
          simpa using this
    · cases h
  · rintro ⟨hn, hd, rest, rfl, hr⟩
    have ht : (n ++ rest).takeWhile digit = n := by
      rw [List.takeWhile_append_of_pos hd]
      cases rest with
      | nil => simp
      | cons b rest => simp [hr b rfl]
    unfold httpError
    rw [if_pos (List.isPrefixOf_iff_prefix.2 (by rw [List.append_assoc]; exact List.prefix_append _ _))]
    have hdrop : (txt "HTTP Error " ++ n ++ rest).drop 11 = n ++ rest := rfl
    rw [hdrop, ht]
    cases n with
    | nil => exact absurd rfl hn
    | cons a n => rfl

/-- The token for a URL of which nothing is known yet: whether its name resolves, its ending
and the answer decide. -/
theorem C103_kinds (U : StrMore) (webPrefix : Txt) (c : Cache) (w : World)
    (proto url d : Txt) (p : Option Txt) (hu : url ≠ [])
    (hb : ∀ e ∈ c.bad, url ∉ e.2) (hh : c.http.get? url = none)
    (hp : c.pages (urlKey U.word url) = none)
    (hd : domainPort U.digit url = some (d, p))
    (hn : ∀ k ∈ [txt "url:non_resolving", txt "url:non_html", txt "url:unknown_error"], ∃ e ∈ c.bad, e.1 = k) :
    (w.resolve d p = some .osError →
      (slurp U false webPrefix w proto url c).1 = .ok (.list [.str (txt "url:non_resolving")])) ∧
    (w.resolve d p = none → (∃ x ∈ [txt "jpg", txt "gif", txt "png", txt "css", txt "js"], (46 :: x) <:+ url) →
      (slurp U false webPrefix w proto url c).1 = .ok (.list [.str (txt "url:non_html")])) ∧
    (w.resolve d p = none → (∀ x ∈ [txt "jpg", txt "gif", txt "png", txt "css", txt "js"], ¬ x <:+ url) →
      (∀ text n, w.fetch (proto ++ txt "://" ++ url) = .failed text → httpError U.digit text = some n →
        (slurp U false webPrefix w proto url c).1 = .ok (.list [.str (txt "url:http_" ++ n)])) ∧
      (∀ text, w.fetch (proto ++ txt "://" ++ url) = .failed text → httpError U.digit text = none →
        (slurp U false webPrefix w proto url c).1 = .ok (.list [.str (txt "url:unknown_error")])) ∧
      (∀ ct, w.fetch (proto ++ txt "://" ++ url) = .page ct → (∀ t, ct = some t → ¬ txt "text/html" <+: t) →
        (slurp U false webPrefix w proto url c).1 = .ok (.list [.str (txt "url:non_html")]))) := by
  have hb' : knownBad c.bad url = none := by
    unfold knownBad
    simpa using fun a b hab => hb (a, b) hab
  have give : ∀ k ∈ [txt "url:non_resolving", txt "url:non_html", txt "url:unknown_error"], ∀ net,
      (giveUp k url { c with net := net }).1 = .ok (.list [.str k]) := by
    intro k hk net
    obtain ⟨e, he, hek⟩ := hn k hk
    have ha : c.bad.any (fun e => e.1 = k) = true := List.any_eq_true.2 ⟨e, he, by simpa using hek⟩
    unfold giveUp
    rw [M.bind_run]
    simp only [addBad, ha, if_true]
    rfl
  have hlast : ∀ x ∈ notHtmlNames, (46 :: x) <:+ url → (splitOn 46 url).getLast?.getD [] = x := by
    rintro x hx ⟨t, rfl⟩
    have hx' : 46 ∉ x := (by decide : ∀ x ∈ notHtmlNames, 46 ∉ x) x hx
    rw [splitOn_append_sep, splitOn_of_not_mem hx']
    simp
  have start : ∀ {R : Except Err Slurped}, w.resolve d p = none →
      (retrieve U w webPrefix proto url { c with net := c.net ++ [.resolve d p] }).1 = R →
      (slurp U false webPrefix w proto url c).1 = R := by
    intro R hr h
    rw [← h]
    unfold slurp
    simp only [hu, if_false, Bool.false_eq_true, M.bind_run, M.get, hb', hh, resolve, hd, M.modify, hr]
  refine ⟨?_, ?_, ?_⟩
  · intro hr
    unfold slurp
    simp only [hu, if_false, Bool.false_eq_true, M.bind_run, M.get, hb', hh, resolve, hd, M.modify, hr]
    exact give _ (by simp) _
  · rintro hr ⟨x, hx, hxu⟩
    refine start hr ?_
    have : (splitOn 46 url).getLast?.getD [] ∈ notHtmlNames := by rw [hlast x hx hxu]; exact hx
    unfold retrieve
    simp only [M.bind_run, M.get, hp, this, if_true]
    exact give _ (by simp) _
  · intro hr hx
    have hl : ((splitOn 46 url).getLast?.getD []) ∉ notHtmlNames := by
      cases hg : (splitOn 46 url).getLast? with
      | none => decide
      | some x =>
        intro hm
        rcases last_split hg with he | he
        · exact hx x hm (by rw [he]; exact List.suffix_refl _)
        · exact hx x hm ((List.suffix_cons 46 x).trans he)
    refine ⟨?_, ?_, ?_⟩
    · intro text n hf ht
      refine start hr ?_
      unfold retrieve
      simp only [M.bind_run, M.get, hp, hl, if_false, request, M.modify, hf, ht]
      rfl
    · intro text hf ht
      refine start hr ?_
      unfold retrieve
      simp only [M.bind_run, M.get, hp, hl, if_false, request, M.modify, hf, ht]
      exact give _ (by simp) _
    · intro ct hf ht
      refine start hr ?_
      unfold retrieve
      simp only [M.bind_run, M.get, hp, hl, if_false, request, M.modify, hf]
      cases ct with
      | none => exact give _ (by simp) _
      | some t =>
        have : ¬ (txt "text/html").isPrefixOf t = true := fun hq => ht t rfl (List.isPrefixOf_iff_prefix.1 hq)
        simp only [this]
        exact give _ (by simp) _

/-- With X_ONLY_SLURP_BASE no URL gives tokens, but for the empty one. -/
theorem C103_only_base (U : StrMore) (webPrefix : Txt) (c : Cache) (w : World) (proto url : Txt)
    (hu : url ≠ []) : slurp U true webPrefix w proto url c = (.error .typeError, c) := by
  unfold slurp
  rw [if_neg hu]
  rfl

/-- A URL that begins with a colon, a slash or a backslash raises, if it is not known to be
bad. -/
theorem C103_no_domain (U : StrMore) (webPrefix : Txt) (c : Cache) (w : World) (proto : Txt) (a : Nat) (rest : Txt)
    (ha : a = 58 ∨ a = 47 ∨ a = 92)
    (hb : ∀ e ∈ c.bad, a :: rest ∉ e.2) (hh : c.http.get? (a :: rest) = none) :
    slurp U false webPrefix w proto (a :: rest) c = (.error .attributeError, c) := by
  have hb' : knownBad c.bad (a :: rest) = none := by
    unfold knownBad
    simpa using fun a b hab => hb (a, b) hab
  have hd : domainPort U.digit (a :: rest) = none := by
    rcases ha with h | h | h <;> subst h <;> simp [domainPort]
  unfold slurp
  simp only [List.cons_ne_nil, if_false, Bool.false_eq_true, M.bind_run, M.get, hb', hh, resolve, hd, M.raise]

/-! ### Cases -/

/-- A network without names. -/
def noNames : World := ⟨fun _ _ => some .osError, fun _ => .raised .osError⟩

/-- A network where every page is there. -/
def allThere : World := ⟨fun _ _ => none, fun _ => .page (some (txt "text/html; charset=utf-8"))⟩

example (U : Str) : slurp (fetchStr U) false [] noNames (txt "http") (txt "a.com:81/x") freshCache =
    (.ok (.list [.str (txt "url:non_resolving")]),
      { freshCache with
        bad := [(txt "url:non_resolving", [txt "a.com:81/x"]), (txt "url:non_html", []),
          (txt "url:unknown_error", [])]
        net := [.resolve (txt "a.com") (some (txt "81"))] }) := rfl

example (U : Str) : slurp (fetchStr U) false [] noNames (txt "http") (txt "a.com")
    (slurps (fetchStr U) false [] (slurp (fetchStr U) false [] allThere (txt "http") (txt "a.com/i.png") freshCache).2
      [(noNames, txt "http", txt "b.org"), (allThere, txt "http", txt "b.org")]) =
    (.ok (.list [.str (txt "url:non_resolving")]), slurps (fetchStr U) false [] freshCache
      [(allThere, txt "http", txt "a.com/i.png"), (noNames, txt "http", txt "b.org"),
        (allThere, txt "http", txt "b.org"), (noNames, txt "http", txt "a.com")]) := rfl

example (U : Str) : (slurp (fetchStr U) false [] allThere (txt "http") (txt "a.com") freshCache).1 =
    .error .attributeError := rfl

/-- The same words, in mail and on a page. -/
example (U : Str) : (slurp (fetchStr U) false [] allThere (txt "http") (txt "a.com")
    { freshCache with pages := fun _ => some ⟨[.bytes (txt "cheap")], none⟩ }).1 =
    .ok (.list [.str (txt "b'cheap'")]) := by rfl

example : urlKey (fun c => c ≠ 47 && c ≠ 63) (txt "a/x?y") = urlKey (fun c => c ≠ 47 && c ≠ 63) (txt "a/x/y") := rfl

end Sb.Props
