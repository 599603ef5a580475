import Verif.Model.UrlCaches
import Verif.Props.Fetch

/-
C113: what is known about URLs outlives the process.
-/

set_option linter.unusedSectionVars false

namespace Sb.Props
open Py Py.Text Sb.Mail Sb.Net Sb.Strip Sb.Tokenize Sb.Slurp

section
variable {B P : Type} [DecidableEq P]

/-- The files, and the object if it has read them, agree that `u` is in the list `x` of
`bad_urls`, and has the entry `y` of `http_error_urls`. -/
structure Agreed (C : UrlCodec B) (u : Txt) (x y : Option Txt) (s : Slurper × UrlFiles B) : Prop where
  bad : ∃ b v, s.2.bad = some b ∧ C.loadBad b = .ok v ∧ knownBad v u = x
  http : ∃ b v, s.2.http = some b ∧ C.loadHttp b = .ok v ∧ v.get? u = y
  mem : s.1.ready = true → knownBad s.1.cache.bad u = x ∧ s.1.cache.http.get? u = y

theorem agreed_setUp {C : UrlCodec B} {u : Txt} {x y : Option Txt} (l : Locks) {s : Slurper × UrlFiles B}
    (h : Agreed C u x y s) :
    Agreed C u x y (setUp C l s).2 ∧ (setUp C l s).2.1.cache.net = s.1.cache.net ∧
      (setUp C l s).2.1.doSlurp = s.1.doSlurp ∧
      ((setUp C l s).1 = .error .lockTimeout ∨ ((setUp C l s).1 = .ok () ∧ (setUp C l s).2.1.ready = true)) := by
  obtain ⟨⟨b, v, hb, hv, hx⟩, ⟨b', v', hb', hv', hy⟩, hm⟩ := h
  unfold setUp
  by_cases hr : s.1.ready = true
  · rw [if_pos hr]
    exact ⟨⟨⟨b, v, hb, hv, hx⟩, ⟨b', v', hb', hv', hy⟩, hm⟩, rfl, rfl, .inr ⟨rfl, hr⟩⟩
  · rw [if_neg hr]
    rw [hb, hb']
    unfold readOr
    simp only [hv, hv']
    by_cases h1 : l.readBad = true
    · rw [if_pos h1]
      exact ⟨⟨⟨b, v, hb, hv, hx⟩, ⟨b', v', hb', hv', hy⟩, hm⟩, rfl, rfl, .inl rfl⟩
    · rw [if_neg h1]
      by_cases h2 : l.readHttp = true
      · rw [if_pos h2]
        exact ⟨⟨⟨b, v, hb, hv, hx⟩, ⟨b', v', hb', hv', hy⟩, fun h => absurd h hr⟩, rfl, rfl, .inl rfl⟩
      · rw [if_neg h2]
        exact ⟨⟨⟨b, v, hb, hv, hx⟩, ⟨b', v', hb', hv', hy⟩, fun _ => ⟨hx, hy⟩⟩, rfl, rfl, .inr ⟨rfl, rfl⟩⟩

theorem agreed_save {C : UrlCodec B} {u : Txt} {x y : Option Txt} (l : Locks) {s : Slurper × UrlFiles B}
    (hr : s.1.ready = true) (h : Agreed C u x y s) :
    Agreed C u x y (saveCaches C l s).2 ∧ (saveCaches C l s).2.1 = s.1 ∧
      ((saveCaches C l s).1 = .error .lockTimeout ∨ (saveCaches C l s).1 = .ok ()) := by
  obtain ⟨hb, hh, hm⟩ := h
  unfold saveCaches
  by_cases h1 : l.writeBad = true
  · rw [if_pos h1]; exact ⟨⟨hb, hh, hm⟩, rfl, .inl rfl⟩
  · rw [if_neg h1]
    by_cases h2 : l.writeHttp = true
    · simp only [if_pos h2]
      exact ⟨⟨⟨_, _, rfl, C.bad_trip _, (hm hr).1⟩, hh, hm⟩, trivial, .inl trivial⟩
    · simp only [if_neg h2]
      exact ⟨⟨⟨_, _, rfl, C.bad_trip _, (hm hr).1⟩, ⟨_, _, rfl, C.http_trip _, (hm hr).2⟩, hm⟩, trivial,
        .inr trivial⟩

/-- `generate`, case by case. -/
theorem generate_eq (U : StrMore) (px : Txt) (C : UrlCodec B) (l : Locks) (w : World) (proto url : Txt)
    (s : Slurper × UrlFiles B) :
    generate U px C l w proto url s =
      match setUp C l s with
      | (.error e, s1) => (.error e, s1)
      | (.ok _, s1) =>
        if s1.1.doSlurp = some false then (.ok (.list []), s1)
        else
          match slurp U false px w proto url s1.1.cache with
          | (.error e, c) => (.error e, (⟨s1.1.ready, some false, c⟩, s1.2))
          | (.ok a, c) =>
            match saveCaches C l (⟨s1.1.ready, some true, c⟩, s1.2) with
            | (.error e, s3) => (.error e, s3)
            | (.ok _, s3) => (.ok a, s3) := by
  unfold generate
  rw [M.bind_run]
  rcases setUp C l s with ⟨r, s1⟩
  cases r with
  | error e => rfl
  | ok _ =>
    change (if s1.1.doSlurp = some false then _ else _ : M (Slurper × UrlFiles B) Slurped) s1 = _
    by_cases hf : s1.1.doSlurp = some false
    · simp only [if_pos hf]; rfl
    · simp only [if_neg hf]
      rw [M.bind_run]
      change (runSlurp U px w proto url >>= _) (⟨s1.1.ready, some false, s1.1.cache⟩, s1.2) = _
      rw [M.bind_run]
      unfold runSlurp
      simp only
      rcases slurp U false px w proto url s1.1.cache with ⟨a, c⟩
      cases a with
      | error e => rfl
      | ok a =>
        change (saveCaches C l >>= _) (⟨s1.1.ready, some true, c⟩, s1.2) = _
        rw [M.bind_run]
        simp only
        rcases saveCaches C l (⟨s1.1.ready, some true, c⟩, s1.2) with ⟨r3, s3⟩
        cases r3 <;> rfl

/-- A message keeps what is agreed. -/
theorem agreed_generate (U : StrMore) (px : Txt) {C : UrlCodec B} {u : Txt} {x y : Option Txt}
    (hxy : x ≠ none ∨ y ≠ none) (l : Locks) (w : World) (proto url : Txt) {s : Slurper × UrlFiles B}
    (h : Agreed C u x y s) : Agreed C u x y (generate U px C l w proto url s).2 := by
  have h1 := agreed_setUp l h
  rw [generate_eq]
  rcases hs : setUp C l s with ⟨r, s1⟩
  rw [hs] at h1
  obtain ⟨ha, hn, hd, hr⟩ := h1
  cases r with
  | error e => exact ha
  | ok _ =>
    have hready : s1.1.ready = true := by
      rcases hr with hr | hr
      · cases hr
      · exact hr.2
    simp only
    by_cases hf : s1.1.doSlurp = some false
    · rw [if_pos hf]; exact ha
    · rw [if_neg hf]
      have hk := slurp_known (U := U) (ob := false) (w := w) (px := px) (proto := proto) (url := url) (u := u)
        (c := s1.1.cache) (by rw [(ha.mem hready).1, (ha.mem hready).2]; exact hxy)
      rcases hc : slurp U false px w proto url s1.1.cache with ⟨a, c⟩
      rw [hc] at hk
      have ha2 : ∀ d, Agreed C u x y (⟨s1.1.ready, d, c⟩, s1.2) := fun d =>
        ⟨ha.bad, ha.http, fun _ => ⟨hk.1.trans (ha.mem hready).1, hk.2.trans (ha.mem hready).2⟩⟩
      cases a with
      | error e => exact ha2 _
      | ok a =>
        have h3 := (agreed_save l (s := (⟨s1.1.ready, some true, c⟩, s1.2)) hready (ha2 (some true))).1
        rcases hsv : saveCaches C l (⟨s1.1.ready, some true, c⟩, s1.2) with ⟨r3, s3⟩
        rw [hsv] at h3
        simp only [hsv]
        cases r3 <;> exact h3

/-- A message with this URL is answered from what is agreed. -/
theorem agreed_answer (U : StrMore) (px : Txt) {C : UrlCodec B} {u : Txt} {x y : Option Txt}
    (l : Locks) (w : World) (proto : Txt) {s : Slurper × UrlFiles B} {a : Slurped}
    (hq : ∀ c, knownBad c.bad u = x → c.http.get? u = y → slurp U false px w proto u c = (.ok a, c))
    (h : Agreed C u x y s) :
    (generate U px C l w proto u s).2.1.cache.net = s.1.cache.net ∧
    ((generate U px C l w proto u s).1 = .error .lockTimeout ∨
      ((generate U px C l w proto u s).1 = .ok (.list []) ∧ s.1.doSlurp = some false) ∨
      (generate U px C l w proto u s).1 = .ok a) := by
  have h1 := agreed_setUp l h
  rw [generate_eq]
  rcases hs : setUp C l s with ⟨r, s1⟩
  rw [hs] at h1
  obtain ⟨ha, hn, hd, hr⟩ := h1
  cases r with
  | error e =>
    refine ⟨hn, .inl ?_⟩
    rcases hr with hr | hr
    · simpa using hr
    · cases hr.1
  | ok _ =>
    have hready : s1.1.ready = true := by
      rcases hr with hr | hr
      · cases hr
      · exact hr.2
    simp only
    by_cases hf : s1.1.doSlurp = some false
    · rw [if_pos hf]; exact ⟨hn, .inr (.inl ⟨rfl, hd ▸ hf⟩)⟩
    · rw [if_neg hf]
      rw [hq s1.1.cache (ha.mem hready).1 (ha.mem hready).2]
      simp only
      have h3 := agreed_save l (s := (⟨s1.1.ready, some true, s1.1.cache⟩, s1.2)) (x := x) (y := y) (u := u) (C := C)
        hready ⟨ha.bad, ha.http, ha.mem⟩
      rcases hsv : saveCaches C l (⟨s1.1.ready, some true, s1.1.cache⟩, s1.2) with ⟨r3, s3⟩
      rw [hsv] at h3
      obtain ⟨_, h3b, h3c⟩ := h3
      cases r3 with
      | error e =>
        refine ⟨by simp only at h3b; simp only; rw [h3b]; exact hn, .inl ?_⟩
        rcases h3c with h3c | h3c
        · simpa using h3c
        · cases h3c
      | ok _ => exact ⟨by simp only at h3b; simp only; rw [h3b]; exact hn, .inr (.inr rfl)⟩

/-- Nothing times out: the answer is given. -/
theorem agreed_new (U : StrMore) (px : Txt) {C : UrlCodec B} {u : Txt} {x y : Option Txt}
    (w : World) (proto : Txt) {s : Slurper × UrlFiles B} {a : Slurped}
    (hq : ∀ c, knownBad c.bad u = x → c.http.get? u = y → slurp U false px w proto u c = (.ok a, c))
    (hd : s.1.doSlurp ≠ some false) (h : Agreed C u x y s) :
    (generate U px C {} w proto u s).1 = .ok a := by
  have h1 := agreed_answer U px {} w proto hq h
  rcases h1.2 with h2 | h2 | h2
  · exfalso
    revert h2
    obtain ⟨⟨b, v, hb, hv, hx⟩, ⟨b', v', hb', hv', hy⟩, hm⟩ := h
    rw [generate_eq]
    have hs : ∃ o, setUp C {} s = (.ok (), (o, s.2)) ∧ o.doSlurp = s.1.doSlurp ∧
        knownBad o.cache.bad u = x ∧ o.cache.http.get? u = y := by
      unfold setUp
      by_cases hr : s.1.ready = true
      · rw [if_pos hr]; exact ⟨s.1, rfl, rfl, hm hr⟩
      · rw [if_neg hr, hb, hb']
        unfold readOr
        simp only [hv, hv']
        exact ⟨_, rfl, rfl, hx, hy⟩
    obtain ⟨o, hs, ho, hk, hk'⟩ := hs
    simp only [hs]
    rw [ho, if_neg hd, hq o.cache hk hk']
    simp [saveCaches]
  · exact absurd h2.2 hd
  · exact h2

/-- A message whose answer comes from `slurp` leaves files and object agreed. -/
theorem generate_agreed (U : StrMore) (px : Txt) (C : UrlCodec B) (l : Locks) (w : World) (proto url : Txt)
    {s : Slurper × UrlFiles B} {ts : List Tok} (hts : ts ≠ [])
    (hp : s.1.cache.pages (urlKey U.word url) = none) (hu : url ≠ [])
    (h : (generate U px C l w proto url s).1 = .ok (.list ts)) :
    ∃ x y, Agreed C url x y (generate U px C l w proto url s).2 ∧
      (generate U px C l w proto url s).2.1.ready = true ∧
      ((∃ k, ts = [.str k] ∧ x = some k) ∨
        ∃ n, ts = [.str (txt "url:http_" ++ n)] ∧ x = none ∧ y = some (txt "url:http_" ++ n)) := by
  revert h
  rw [generate_eq]
  have hpg : (setUp C l s).2.1.cache.pages = s.1.cache.pages := by
    unfold setUp
    split
    · rfl
    · split
      · rfl
      · split <;> rfl
  have hrd : (setUp C l s).1 = .ok () → (setUp C l s).2.1.ready = true := by
    unfold setUp
    split
    · next h => exact fun _ => h
    · split
      · intro h; cases h
      · split
        · intro h; cases h
        · exact fun _ => rfl
  rcases hs : setUp C l s with ⟨r, s1⟩
  rw [hs] at hpg hrd
  cases r with
  | error e => intro h; cases h
  | ok _ =>
    simp only
    by_cases hf : s1.1.doSlurp = some false
    · rw [if_pos hf]
      intro h
      injection h with h
      injection h with h
      exact absurd h.symm hts
    · rw [if_neg hf]
      rcases hc : slurp U false px w proto url s1.1.cache with ⟨a, c⟩
      cases a with
      | error e => intro h; cases h
      | ok a =>
        simp only
        unfold saveCaches
        by_cases h1 : l.writeBad = true
        · rw [if_pos h1]; intro h; cases h
        · rw [if_neg h1]
          by_cases h2 : l.writeHttp = true
          · simp only [if_pos h2]; intro h; cases h
          · simp only [if_neg h2]
            intro h
            injection h with h
            subst h
            have hnoted := slurp_noted hu (by rw [hpg]; exact hp) hc
            have hag : ∀ x y, knownBad c.bad url = x → c.http.get? url = y →
                Agreed C url x y (⟨s1.1.ready, some true, c⟩,
                  (⟨some (C.dumpBad c.bad), some (C.dumpHttp c.http)⟩ : UrlFiles B)) := fun x y hx hy =>
              ⟨⟨_, _, rfl, C.bad_trip _, hx⟩, ⟨_, _, rfl, C.http_trip _, hy⟩, fun _ => ⟨hx, hy⟩⟩
            rcases hnoted with ⟨k, hk, hb⟩ | ⟨n, hk, hb, hh⟩
            · injection hk with hk
              exact ⟨some k, c.http.get? url, hag _ _ hb rfl, hrd rfl, .inl ⟨k, hk, rfl⟩⟩
            · injection hk with hk
              exact ⟨none, some (txt "url:http_" ++ n), hag _ _ hb hh, hrd rfl, .inr ⟨n, hk, rfl, rfl⟩⟩

/-- Everything one process does keeps what is agreed. -/
theorem agreed_run (U : StrMore) (px : Txt) {C : UrlCodec B} {u : Txt} {x y : Option Txt}
    (hxy : x ≠ none ∨ y ≠ none) (p : P) (es : List (P × Use)) (hes : ∀ e ∈ es, e.1 = p) :
    ∀ s : Slurpers P B, Agreed C u x y (s.procs p, s.files) →
      Agreed C u x y ((s.run U px C es).procs p, (s.run U px C es).files) := by
  induction es with
  | nil => exact fun _ h => h
  | cons e es ih =>
    intro s h
    have hp := hes e (by simp)
    refine ih (fun e he => hes e (by simp [he])) _ ?_
    obtain ⟨q, use⟩ := e
    simp only at hp
    subst hp
    cases use with
    | restart pages =>
      unfold Slurpers.step
      simp only [Function.update_self]
      exact ⟨h.bad, h.http, fun h => by cases h⟩
    | message l w proto url =>
      have := agreed_generate U px hxy l w proto url h
      unfold Slurpers.step
      simp only [Function.update_self]
      exact this

/-- No object has done anything yet, and there are no files. -/
def noUrls (P B : Type) : Slurpers P B := ⟨fun _ => .new (fun _ => none) [], ⟨none, none⟩⟩

/-- The claim: a message whose URL gives the answer `ts` gives it for ever.  Whatever the
processes that share the files do afterwards, and in whatever order they are started
anew, none of them asks the network for this URL again, and each answer is `ts` (or none at
all). -/
def C113Claim (U : StrMore) (P B : Type) [DecidableEq P] (C : UrlCodec B) : Prop :=
  ∀ (webPrefix : Txt) (before : List (P × Use)) (p q : P) (l l' : Locks) (w w' : World) (proto proto' url : Txt)
    (ts : List Tok) (es : List (P × Use)),
    ts ≠ [] → (∀ n, ts ≠ [.str (txt "url:http_" ++ n)]) →
    (∀ e ∈ before ++ es, ∀ pages, e.2 = .restart pages → pages = fun _ => none) →
    let s := (noUrls P B).run U webPrefix C before
    (generate U webPrefix C l w proto url (s.procs p, s.files)).1 = .ok (.list ts) →
    let t := (s.step U webPrefix C (p, .message l w proto url)).run U webPrefix C es
    let r := generate U webPrefix C l' w' proto' url (t.procs q, t.files)
    r.2.1.cache.net = (t.procs q).cache.net ∧ ∀ a, r.1 = .ok a → a = .list [] ∨ a = .list ts

/-- It holds for one process, which may be started anew any number of times: the answer is
`ts`, or nothing when an exception has switched the search off, or a lock is not to be had. -/
theorem C113_survives_partial (U : StrMore) (webPrefix : Txt) (C : UrlCodec B) (s : Slurpers P B) (p : P)
    (l l' : Locks) (w w' : World) (proto proto' url : Txt) (ts : List Tok) (es : List (P × Use))
    (hts : ts ≠ []) (hn : ∀ n, ts ≠ [.str (txt "url:http_" ++ n)])
    (hp : (s.procs p).cache.pages (urlKey U.word url) = none)
    (h : (generate U webPrefix C l w proto url (s.procs p, s.files)).1 = .ok (.list ts))
    (hu : url ≠ []) (hes : ∀ e ∈ es, e.1 = p) :
    let t := (s.step U webPrefix C (p, .message l w proto url)).run U webPrefix C es
    let r := generate U webPrefix C l' w' proto' url (t.procs p, t.files)
    r.2.1.cache.net = (t.procs p).cache.net ∧
    (r.1 = .error .lockTimeout ∨ (r.1 = .ok (.list []) ∧ (t.procs p).doSlurp = some false) ∨
      r.1 = .ok (.list ts)) := by
  obtain ⟨x, y, ha, _, hk⟩ := generate_agreed U webPrefix C l w proto url hts hp hu h
  rcases hk with ⟨k, rfl, rfl⟩ | ⟨n, hk, _⟩
  · have ha1 : Agreed C url (some k) y ((s.step U webPrefix C (p, .message l w proto url)).procs p,
        (s.step U webPrefix C (p, .message l w proto url)).files) := by
      unfold Slurpers.step
      simp only [Function.update_self]
      exact ha
    have ha2 := agreed_run U webPrefix (.inl (by simp)) p es hes _ ha1
    exact agreed_answer U webPrefix l' w' proto' (fun c hc _ => slurp_of_bad hu hc) ha2
  · exact absurd hk (hn n)

/-- A new object gives the answer, if no lock times out. -/
theorem C113_restart_partial (U : StrMore) (webPrefix : Txt) (C : UrlCodec B) (s : Slurpers P B) (p : P)
    (l : Locks) (w w' : World) (proto proto' url : Txt) (ts : List Tok) (es : List (P × Use))
    (pages : Txt → Option Gen)
    (hts : ts ≠ []) (hn : ∀ n, ts ≠ [.str (txt "url:http_" ++ n)])
    (hp : (s.procs p).cache.pages (urlKey U.word url) = none)
    (h : (generate U webPrefix C l w proto url (s.procs p, s.files)).1 = .ok (.list ts))
    (hu : url ≠ []) (hes : ∀ e ∈ es, e.1 = p) :
    let t := (s.step U webPrefix C (p, .message l w proto url)).run U webPrefix C (es ++ [(p, .restart pages)])
    (generate U webPrefix C {} w' proto' url (t.procs p, t.files)).1 = .ok (.list ts) := by
  intro t
  obtain ⟨x, y, ha, _, hk⟩ := generate_agreed U webPrefix C l w proto url hts hp hu h
  rcases hk with ⟨k, rfl, rfl⟩ | ⟨n, hk, _⟩
  · have ha1 : Agreed C url (some k) y ((s.step U webPrefix C (p, .message l w proto url)).procs p,
        (s.step U webPrefix C (p, .message l w proto url)).files) := by
      unfold Slurpers.step
      simp only [Function.update_self]
      exact ha
    have ha2 := agreed_run U webPrefix (.inl (by simp)) p (es ++ [(p, .restart pages)])
      (by simpa [or_imp, forall_and] using fun a b hab => hes (a, b) hab) _ ha1
    refine agreed_new U webPrefix w' proto' (fun c hc _ => slurp_of_bad hu hc) ?_ ha2
    change (t.procs p).doSlurp ≠ some false
    simp only [t]
    unfold Slurpers.run
    rw [List.foldl_append]
    simp only [List.foldl_cons, List.foldl_nil]
    rw [Slurpers.step]
    simp [Slurper.new]
  · exact absurd hk (hn n)

/-- After a HTTP error the later answers are the characters of the token, also in every
later object. -/
theorem C113_http_error (U : StrMore) (webPrefix : Txt) (C : UrlCodec B) (s : Slurpers P B) (p : P)
    (l l' : Locks) (w w' : World) (proto proto' url n : Txt) (es : List (P × Use))
    (hp : (s.procs p).cache.pages (urlKey U.word url) = none)
    (h : (generate U webPrefix C l w proto url (s.procs p, s.files)).1 =
      .ok (.list [.str (txt "url:http_" ++ n)]))
    (hb : ∀ e ∈ (generate U webPrefix C l w proto url (s.procs p, s.files)).2.1.cache.bad, url ∉ e.2)
    (hu : url ≠ []) (hes : ∀ e ∈ es, e.1 = p) :
    let t := (s.step U webPrefix C (p, .message l w proto url)).run U webPrefix C es
    let r := generate U webPrefix C l' w' proto' url (t.procs p, t.files)
    r.2.1.cache.net = (t.procs p).cache.net ∧
    ∀ a, r.1 = .ok a → a = .list [] ∨ a.items = (txt "url:http_" ++ n).map (fun ch => .str [ch]) := by
  obtain ⟨x, y, ha, hr, hk⟩ := generate_agreed U webPrefix C l w proto url (by simp) hp hu h
  have hx : x = none := by
    rw [← (ha.mem hr).1]
    unfold knownBad
    simpa using fun a b hab => hb (a, b) hab
  subst hx
  rcases hk with ⟨k, _, hk⟩ | ⟨m, hk, _, hy⟩
  · cases hk
  · injection hk with hk
    injection hk with hk
    subst hy
    have ha1 : Agreed C url none (some (txt "url:http_" ++ m))
        ((s.step U webPrefix C (p, .message l w proto url)).procs p,
        (s.step U webPrefix C (p, .message l w proto url)).files) := by
      unfold Slurpers.step
      simp only [Function.update_self]
      exact ha
    have ha2 := agreed_run U webPrefix (.inr (by simp)) p es hes _ ha1
    have ha3 := agreed_answer U webPrefix l' w' proto' (fun c hc hd => slurp_of_http hu hc hd) ha2
    refine ⟨ha3.1, fun a ha4 => ?_⟩
    rcases ha3.2 with h1 | h1 | h1
    · rw [h1] at ha4; cases ha4
    · rw [h1.1] at ha4; injection ha4 with ha4; exact .inl ha4.symm
    · rw [h1] at ha4
      injection ha4 with ha4
      right
      rw [← ha4, hk]
      rfl

/-- A file that cannot be read for another reason than OSError or ValueError (an empty
file: EOFError) stops every message of every new object, for ever. -/
theorem C113_damaged (U : StrMore) (webPrefix : Txt) (C : UrlCodec B) (s : Slurpers P B) (b : B) (e : Err)
    (es : List (P × Use)) (q : P) (l : Locks) (w : World) (proto url : Txt)
    (hs : ∀ p, (s.procs p).ready = false) (hf : s.files.bad = some b) (hb : C.loadBad b = .error e)
    (he : e ≠ .osError) (he' : e ≠ .valueError) :
    let t := s.run U webPrefix C es
    t.files = s.files ∧
    (generate U webPrefix C l w proto url (t.procs q, t.files)).1 =
      .error (if l.readBad then .lockTimeout else e) := by
  have one : ∀ (o : Slurper) (f : UrlFiles B) (l : Locks) (w : World) (proto url : Txt), o.ready = false →
      f.bad = some b → generate U webPrefix C l w proto url (o, f) =
        (.error (if l.readBad then .lockTimeout else e), (o, f)) := by
    intro o f l w proto url ho hf
    rw [generate_eq]
    have : setUp C l (o, f) = (.error (if l.readBad then .lockTimeout else e), (o, f)) := by
      unfold setUp
      rw [if_neg (by simp [ho])]
      simp only [hf, readOr, hb]
      by_cases hl : l.readBad = true
      · simp [hl]
      · rw [if_neg hl]
        cases e <;> simp_all
    rw [this]
  have inv : ∀ (es : List (P × Use)) (s : Slurpers P B), (∀ p, (s.procs p).ready = false) → s.files.bad = some b →
      (∀ p, ((s.run U webPrefix C es).procs p).ready = false) ∧ (s.run U webPrefix C es).files = s.files := by
    intro es
    induction es with
    | nil => exact fun s h _ => ⟨h, rfl⟩
    | cons x es ih =>
      intro s h hf
      have hx : (∀ p, ((s.step U webPrefix C x).procs p).ready = false) ∧
          (s.step U webPrefix C x).files = s.files := by
        obtain ⟨p, use⟩ := x
        unfold Slurpers.step
        cases use with
        | restart pages =>
          refine ⟨fun q => ?_, rfl⟩
          by_cases hq : q = p
          · subst hq; simp [Slurper.new]
          · simpa [Function.update_of_ne hq] using h q
        | message l w proto url =>
          simp only [one _ _ l w proto url (h p) hf]
          refine ⟨fun q => ?_, trivial⟩
          by_cases hq : q = p
          · subst hq; simpa using h q
          · simpa [Function.update_of_ne hq] using h q
      have h2 := ih (s.step U webPrefix C x) hx.1 (hx.2 ▸ hf)
      exact ⟨h2.1, h2.2.trans hx.2⟩
  intro t
  have h := inv es s hs hf
  exact ⟨h.2, by rw [one _ _ l w proto url (h.1 q) (by rw [h.2]; exact hf)]⟩

/-- A file that gives an OSError or a ValueError is as good as none. -/
theorem C113_afresh (U : StrMore) (webPrefix : Txt) (C : UrlCodec B) (o : Slurper) (b b' : B) (e e' : Err)
    (w : World) (proto url : Txt) (hr : o.ready = false)
    (hb : C.loadBad b = .error e) (he : e = .osError ∨ e = .valueError)
    (hb' : C.loadHttp b' = .error e') (he' : e' = .osError ∨ e' = .valueError) :
    (generate U webPrefix C {} w proto url (o, ⟨some b, some b'⟩)).1 =
      (generate U webPrefix C {} w proto url (o, ⟨none, none⟩)).1 := by
  rw [generate_eq, generate_eq]
  have h1 : ∀ f f' : Option B, (f = none ∨ f = some b) → (f' = none ∨ f' = some b') →
      setUp C {} (o, ⟨f, f'⟩) =
        (.ok (), ({ o with ready := true, cache := { o.cache with bad := freshBad, http := Dict.empty } }, ⟨f, f'⟩)) := by
    intro f f' hf hf'
    unfold setUp
    rw [if_neg (by simp [hr])]
    rcases hf with rfl | rfl <;> rcases hf' with rfl | rfl <;> rcases he with rfl | rfl <;>
      rcases he' with rfl | rfl <;> simp [readOr, hb, hb']
  rw [h1 _ _ (.inr rfl) (.inr rfl), h1 _ _ (.inl rfl) (.inl rfl)]
  simp only
  split
  · rfl
  · rcases slurp U false webPrefix w proto url _ with ⟨a, c⟩
    cases a <;> simp [saveCaches]

/-- A new object without files has nothing against any URL, and each kind of failure can be
noted: the first URL gives the token of its kind. -/
theorem C113_first (U : StrMore) (webPrefix : Txt) (C : UrlCodec B) (pages : Txt → Option Gen) (net : List Op)
    (w : World) (proto url d : Txt) (p : Option Txt) (hu : url ≠ []) (hp : pages (urlKey U.word url) = none)
    (hd : domainPort U.digit url = some (d, p)) :
    let r := (generate U webPrefix C {} w proto url (.new pages net, ⟨none, none⟩)).1
    (w.resolve d p = some .osError → r = .ok (.list [.str (txt "url:non_resolving")])) ∧
    (w.resolve d p = none → (∃ x ∈ [txt "jpg", txt "gif", txt "png", txt "css", txt "js"], (46 :: x) <:+ url) →
      r = .ok (.list [.str (txt "url:non_html")])) ∧
    (w.resolve d p = none → (∀ x ∈ [txt "jpg", txt "gif", txt "png", txt "css", txt "js"], ¬ x <:+ url) →
      (∀ text n, w.fetch (proto ++ txt "://" ++ url) = .failed text → httpError U.digit text = some n →
        r = .ok (.list [.str (txt "url:http_" ++ n)])) ∧
      (∀ text, w.fetch (proto ++ txt "://" ++ url) = .failed text → httpError U.digit text = none →
        r = .ok (.list [.str (txt "url:unknown_error")])) ∧
      (∀ ct, w.fetch (proto ++ txt "://" ++ url) = .page ct → (∀ t, ct = some t → ¬ txt "text/html" <+: t) →
        r = .ok (.list [.str (txt "url:non_html")]))) := by
  have key : ∀ a, (slurp U false webPrefix w proto url ⟨freshBad, Dict.empty, pages, net⟩).1 = .ok a →
      (generate U webPrefix C {} w proto url (.new pages net, ⟨none, none⟩)).1 = .ok a := by
    intro a h
    rw [generate_eq]
    have h1 : setUp C {} (Slurper.new pages net, (⟨none, none⟩ : UrlFiles B)) =
        (.ok (), (⟨true, none, ⟨freshBad, Dict.empty, pages, net⟩⟩, ⟨none, none⟩)) := rfl
    rw [h1]
    simp only [reduceCtorEq, if_false]
    rcases hs : slurp U false webPrefix w proto url ⟨freshBad, Dict.empty, pages, net⟩ with ⟨x, c⟩
    rw [hs] at h
    cases h
    simp [saveCaches]
  obtain ⟨k1, k2, k3⟩ := C103_kinds U webPrefix ⟨freshBad, Dict.empty, pages, net⟩ w proto url d p hu
    (by intro e he; have : ∀ e ∈ freshBad, e.2 = [] := by decide
        simp [this e he]) rfl hp hd
    (show ∀ k ∈ [txt "url:non_resolving", txt "url:non_html", txt "url:unknown_error"], ∃ e ∈ freshBad, e.1 = k by decide)
  refine ⟨fun h => key _ (k1 h), fun h h' => key _ (k2 h h'), fun h h' => ?_⟩
  obtain ⟨k4, k5, k6⟩ := k3 h h'
  exact ⟨fun t n a b => key _ (k4 t n a b), fun t a b => key _ (k5 t a b), fun ct a b => key _ (k6 ct a b)⟩

/-- An exception in `slurp` switches the search off for good: until the process makes a new
object, its messages get no tokens from URLs, and change nothing. -/
theorem C113_switched_off (U : StrMore) (webPrefix : Txt) (C : UrlCodec B) (s : Slurpers P B) (p : P)
    (l l' : Locks) (w w' : World) (proto proto' url url' : Txt) (e : Err) (c : Cache) (es : List (P × Use))
    (hr : (s.procs p).ready = true) (hd : (s.procs p).doSlurp ≠ some false)
    (h : slurp U false webPrefix w proto url (s.procs p).cache = (.error e, c))
    (hes : ∀ x ∈ es, x.1 = p → ∀ pages, x.2 ≠ .restart pages) :
    (generate U webPrefix C l w proto url (s.procs p, s.files)).1 = .error e ∧
    (let t := (s.step U webPrefix C (p, .message l w proto url)).run U webPrefix C es
     generate U webPrefix C l' w' proto' url' (t.procs p, t.files) = (.ok (.list []), (t.procs p, t.files))) := by
  have off : ∀ (o : Slurper) (f : UrlFiles B) (l : Locks) (w : World) (proto url : Txt), o.ready = true →
      o.doSlurp = some false → generate U webPrefix C l w proto url (o, f) = (.ok (.list []), (o, f)) := by
    intro o f l w proto url ho hd
    rw [generate_eq]
    have : setUp C l (o, f) = (.ok (), (o, f)) := by
      unfold setUp
      rw [if_pos (by exact ho)]
    rw [this]
    simp [hd]
  have inv : ∀ (es : List (P × Use)), (∀ x ∈ es, x.1 = p → ∀ pages, x.2 ≠ .restart pages) →
      ∀ (s : Slurpers P B), ((s.procs p).ready = true ∧ (s.procs p).doSlurp = some false) →
      (((s.run U webPrefix C es).procs p).ready = true ∧ ((s.run U webPrefix C es).procs p).doSlurp = some false) := by
    intro es
    induction es with
    | nil => exact fun _ s h => h
    | cons x es ih =>
      intro hes s h
      refine ih (fun x hx => hes x (by simp [hx])) _ ?_
      have hx := hes x (by simp)
      obtain ⟨q, use⟩ := x
      unfold Slurpers.step
      cases use with
      | restart pages =>
        have hq : p ≠ q := fun hq => hx hq.symm pages rfl
        simpa [Function.update_of_ne hq] using h
      | message l w proto url =>
        by_cases hq : p = q
        · subst hq
          simpa [off _ _ l w proto url h.1 h.2] using h
        · simpa [Function.update_of_ne hq] using h
  have first : generate U webPrefix C l w proto url (s.procs p, s.files) =
      (.error e, (⟨true, some false, c⟩, s.files)) := by
    rw [generate_eq]
    have : setUp C l (s.procs p, s.files) = (.ok (), (s.procs p, s.files)) := by
      unfold setUp
      rw [if_pos (by exact hr)]
    rw [this]
    simp [hd, h, hr]
  refine ⟨by rw [first], ?_⟩
  intro t
  have h2 := inv es hes (s.step U webPrefix C (p, .message l w proto url)) (by
    unfold Slurpers.step
    simp [first])
  exact off _ _ l' w' proto' url' h2.1 h2.2

/-- A pickle for the examples: the values themselves; anything else is an empty file. -/
def plainPickle : UrlCodec (Option (List (Txt × List Txt) ⊕ Dict Txt Txt)) where
  dumpBad x := some (.inl x)
  loadBad := fun | some (.inl x) => .ok x | _ => .error .eofError
  bad_trip _ := rfl
  dumpHttp x := some (.inr x)
  loadHttp := fun | some (.inr x) => .ok x | _ => .error .eofError
  http_trip _ := rfl

/-- With two processes the claim is false: the second one, which read the files before the
first one had its answer, writes its own view over them. -/
theorem C113_claim_false (U : Str) : ¬ C113Claim (fetchStr U) Bool _ plainPickle := by
  intro h
  have := (h [] [(true, .message {} noNames (txt "http") (txt "b.com"))] false false {} {} noNames allThere
    (txt "http") (txt "http") (txt "a.com") [.str (txt "url:non_resolving")]
    [(true, .message {} noNames (txt "http") (txt "c.com")), (false, .restart (fun _ => none))]
    (by simp) (by intro n hn; injection hn with hn; injection hn with hn; revert hn; simp [txt]) (by simp) rfl).1
  exact absurd (show (3 : Nat) = 1 from congrArg List.length this) (by decide)

example (U : Str) :
    let s := (noUrls Unit _).run (fetchStr U) [] plainPickle [((), .message {} noNames (txt "http") (txt "a.com")),
      ((), .restart (fun _ => none))]
    (generate (fetchStr U) [] plainPickle {} allThere (txt "http") (txt "a.com") (s.procs (), s.files)).1 =
      .ok (.list [.str (txt "url:non_resolving")]) := rfl

example (U : Str) :
    (generate (fetchStr U) [] plainPickle {} noNames (txt "http") (txt "a.com") (.new (fun _ => none) [], ⟨none, none⟩)).1 =
      .ok (.list [.str (txt "url:non_resolving")]) :=
  (C113_first (fetchStr U) [] plainPickle (fun _ => none) [] noNames (txt "http") (txt "a.com") (txt "a.com") none
    (by simp [txt]) rfl rfl).1 rfl

-- a page that can be had: the exception of `makeMessage`, and then nothing any more
example (U : Str) :
    let s := (noUrls Unit _).run (fetchStr U) [] plainPickle [((), .message {} allThere (txt "http") (txt "a.com"))]
    (generate (fetchStr U) [] plainPickle {} noNames (txt "http") (txt "b.com") (s.procs (), s.files)).1 =
      .ok (.list []) := rfl

-- an empty file: EOFError
example (U : Str) :
    (generate (fetchStr U) [] plainPickle {} noNames (txt "http") (txt "b.com")
      (.new (fun _ => none) [], ⟨some none, none⟩)).1 = .error .eofError := rfl

end
end Sb.Props
