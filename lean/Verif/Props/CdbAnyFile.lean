import Verif.Props.CdbClassifier

/-
Property C34: CDBClassifier and a file that it did not write.
-/

set_option linter.unusedSectionVars false

namespace Sb.Props
open Sb Py

variable {W B K : Type} [DecidableEq W]

/-- The value of a row of decimal digits. -/
def decimal (ds : List (Fin 10)) : Nat := ds.foldl (fun n d => 10 * n + d.val) 0

/-- The text is the numeral of the number: digits, with or without a minus sign. -/
def Numeral (s : List Char) (i : Int) : Prop :=
  ∃ ds : List (Fin 10), ds ≠ [] ∧
    ((s = ds.map (fun d => Char.ofNat (48 + d.val)) ∧ i = decimal ds) ∨
      (s = '-' :: ds.map (fun d => Char.ofNat (48 + d.val)) ∧ i = -(decimal ds : Int)))

/-- The text is the numerals of the numbers with commas between them. -/
inductive Numbers : List Char → List Int → Prop
  | one {s : List Char} {i : Int} : Numeral s i → Numbers s [i]
  | more {s t : List Char} {i : Int} {l : List Int} : Numeral s i → Numbers t l → Numbers (s ++ ',' :: t) (i :: l)

theorem parseDigits_iff : ∀ (s : List Char) (acc n : Nat), parseDigits acc s = .ok n ↔
    ∃ ds : List (Fin 10), s = ds.map (fun d => Char.ofNat (48 + d.val)) ∧
      n = ds.foldl (fun n d => 10 * n + d.val) acc := by
  intro s
  induction s with
  | nil =>
    intro acc n
    constructor
    · intro h; injection h with h; exact ⟨[], rfl, h.symm⟩
    · rintro ⟨ds, h1, h2⟩
      have : ds = [] := List.map_eq_nil_iff.1 h1.symm
      subst this; rw [h2]; rfl
  | cons c r ih =>
    intro acc n
    simp only [parseDigits]
    constructor
    · intro h
      split at h
      · rename_i hc
        obtain ⟨ds, h1, h2⟩ := (ih _ _).1 h
        refine ⟨⟨c.toNat - 48, by omega⟩ :: ds, ?_, ?_⟩
        · rw [List.map_cons, ← h1]
          congr 1
          have : 48 + (c.toNat - 48) = c.toNat := by omega
          simp only [this, Char.ofNat_toNat]
        · simpa using h2
      · cases h
    · rintro ⟨ds, h1, h2⟩
      cases ds with
      | nil => cases h1
      | cons d ds =>
        rw [List.map_cons] at h1
        injection h1 with h1 h3
        have hd : c.toNat = 48 + d.val := by rw [h1]; exact digit_toNat d.isLt
        rw [if_pos ⟨by omega, by have := d.isLt; omega⟩, ih]
        refine ⟨ds, h3, ?_⟩
        rw [h2, List.foldl_cons, hd]
        congr 2; omega

theorem parseNat_iff (s : List Char) (n : Nat) : parseNat s = .ok n ↔
    ∃ ds : List (Fin 10), ds ≠ [] ∧ s = ds.map (fun d => Char.ofNat (48 + d.val)) ∧ n = decimal ds := by
  cases s with
  | nil =>
    constructor
    · intro h; cases h
    · rintro ⟨ds, h0, h1, _⟩; exact absurd (List.map_eq_nil_iff.1 h1.symm) h0
  | cons c r =>
    change parseDigits 0 (c :: r) = _ ↔ _
    rw [parseDigits_iff]
    constructor
    · rintro ⟨ds, h1, h2⟩
      exact ⟨ds, (by intro hd; rw [hd] at h1; cases h1), h1, h2⟩
    · rintro ⟨ds, _, h1, h2⟩; exact ⟨ds, h1, h2⟩

theorem map_ok_iff {α β : Type} (f : α → β) (x : Except Err α) (b : β) :
    x.map f = .ok b ↔ ∃ a, x = .ok a ∧ f a = b := by
  cases x with
  | error e =>
    constructor
    · intro h; cases h
    · rintro ⟨a, h, _⟩; cases h
  | ok a =>
    constructor
    · intro h; injection h with h; exact ⟨a, rfl, h⟩
    · rintro ⟨a', h, h2⟩; injection h with h; subst h; rw [← h2]; rfl

theorem minus_free (ds : List (Fin 10)) (c : Char) (hc : c.toNat < 48) :
    c ∉ ds.map (fun d => Char.ofNat (48 + d.val)) := by
  intro h
  obtain ⟨d, _, hd⟩ := List.mem_map.1 h
  exact digit_ne d.isLt c hc hd

theorem parseInt_iff (s : List Char) (i : Int) : parseInt s = .ok i ↔ Numeral s i := by
  unfold parseInt
  split
  · rename_i s
    rw [map_ok_iff]
    constructor
    · rintro ⟨n, h, rfl⟩
      obtain ⟨ds, h0, h1, h2⟩ := (parseNat_iff _ _).1 h
      exact ⟨ds, h0, .inr ⟨by rw [h1], by rw [h2]⟩⟩
    · rintro ⟨ds, h0, ⟨h1, h2⟩ | ⟨h1, h2⟩⟩
      · exact absurd (h1 ▸ List.mem_cons_self) (minus_free ds '-' (by decide))
      · injection h1 with _ h1
        exact ⟨_, (parseNat_iff _ _).2 ⟨ds, h0, h1, rfl⟩, h2.symm⟩
  · rename_i hs
    rw [map_ok_iff]
    constructor
    · rintro ⟨n, h, rfl⟩
      obtain ⟨ds, h0, h1, h2⟩ := (parseNat_iff _ _).1 h
      exact ⟨ds, h0, .inl ⟨h1, by rw [h2]⟩⟩
    · rintro ⟨ds, h0, ⟨h1, h2⟩ | ⟨h1, h2⟩⟩
      · exact ⟨_, (parseNat_iff _ _).2 ⟨ds, h0, h1, rfl⟩, h2.symm⟩
      · exact absurd h1 (hs _)

theorem numeral_no_comma {s : List Char} {i : Int} (h : Numeral s i) : ',' ∉ s := by
  obtain ⟨ds, _, ⟨rfl, _⟩ | ⟨rfl, _⟩⟩ := h
  · exact minus_free ds ',' (by decide)
  · intro h
    rcases List.mem_cons.1 h with h | h
    · exact absurd h (by decide)
    · exact minus_free ds ',' (by decide) h

theorem splitComma_ne (s : List Char) : splitComma s ≠ [] := by
  cases s with
  | nil => simp [splitComma]
  | cons c r =>
    simp only [splitComma]
    split
    · simp
    · split <;> simp

theorem splitComma_cons {s : List Char} (hs : ',' ∉ s) (t : List Char) :
    splitComma (s ++ ',' :: t) = s :: splitComma t := by
  induction s with
  | nil =>
    simp only [List.nil_append, splitComma]
    cases h : splitComma t with
    | nil => exact absurd h (splitComma_ne t)
    | cons p ps => rfl
  | cons c r ih =>
    simp only [List.mem_cons, not_or] at hs
    simp only [List.cons_append, splitComma]
    rw [ih hs.2]
    dsimp only
    rw [if_neg (fun e => hs.1 e.symm)]

/-- A text without a comma, or one up to its first comma and the rest. -/
theorem comma_cases (s : List Char) : ',' ∉ s ∨ ∃ a t, ',' ∉ a ∧ s = a ++ ',' :: t := by
  induction s with
  | nil => exact .inl (by simp)
  | cons c r ih =>
    by_cases hc : c = ','
    · exact .inr ⟨[], r, by simp, by rw [hc]; rfl⟩
    · rcases ih with h | ⟨a, t, h1, h2⟩
      · exact .inl (by simp only [List.mem_cons, not_or]; exact ⟨fun e => hc e.symm, h⟩)
      · exact .inr ⟨c :: a, t, by simp only [List.mem_cons, not_or]; exact ⟨fun e => hc e.symm, h1⟩, by rw [h2]; rfl⟩

theorem mapM_ok_cons {α β : Type} (f : α → Except Err β) (a : α) (l : List α) (r : List β) :
    (a :: l).mapM f = .ok r ↔ ∃ b bs, f a = .ok b ∧ l.mapM f = .ok bs ∧ r = b :: bs := by
  rw [List.mapM_cons]
  cases h : f a with
  | error e =>
    constructor
    · intro h; cases h
    · rintro ⟨b, bs, h, _⟩; cases h
  | ok b =>
    cases h2 : l.mapM f with
    | error e =>
      constructor
      · intro h; cases h
      · rintro ⟨b, bs, _, h, _⟩; cases h
    | ok bs =>
      constructor
      · intro h; injection h with h; exact ⟨b, bs, rfl, rfl, h.symm⟩
      · rintro ⟨b', bs', h, h', rfl⟩; injection h with h; injection h' with h'; rw [← h, ← h']; rfl

theorem parseInts_iff (l : List Int) : ∀ s : List Char, parseInts s = .ok l ↔ Numbers s l := by
  induction l with
  | nil =>
    intro s
    constructor
    · intro h
      unfold parseInts at h
      cases hs : splitComma s with
      | nil => exact absurd hs (splitComma_ne s)
      | cons p ps =>
        rw [hs] at h
        obtain ⟨b, bs, _, _, h⟩ := (mapM_ok_cons _ _ _ _).1 h
        cases h
    · intro h; cases h
  | cons i l ih =>
    intro s
    constructor
    · intro h
      unfold parseInts at h
      rcases comma_cases s with hs | ⟨a, t, ha, rfl⟩
      · rw [splitComma_no hs] at h
        obtain ⟨b, bs, h1, h2, h3⟩ := (mapM_ok_cons _ _ _ _).1 h
        injection h3 with h3 h4
        injection h2 with h2
        subst h3 h4 h2
        exact .one ((parseInt_iff _ _).1 h1)
      · rw [splitComma_cons ha] at h
        obtain ⟨b, bs, h1, h2, h3⟩ := (mapM_ok_cons _ _ _ _).1 h
        injection h3 with h3 h4
        subst h3 h4
        exact .more ((parseInt_iff _ _).1 h1) ((ih t).1 h2)
    · intro h
      unfold parseInts
      cases h with
      | one h =>
        rw [splitComma_no (numeral_no_comma h)]
        exact (mapM_ok_cons _ _ _ _).2 ⟨_, [], (parseInt_iff _ _).2 h, rfl, rfl⟩
      | more h1 h2 =>
        rw [splitComma_cons (numeral_no_comma h1)]
        exact (mapM_ok_cons _ _ _ _).2 ⟨_, _, (parseInt_iff _ _).2 h1, (ih _).2 h2, rfl⟩

/-- What a word's value says: its first number is taken for the spam count, its second, if
there is one, for the ham count. -/
def Record (v : List Char) (r : WordInfo) : Prop :=
  Numbers v [r.spamcount, r.hamcount] ∨ (Numbers v [r.spamcount] ∧ r.hamcount = 0)

theorem fromString_iff (v : List Char) (r : WordInfo) : fromString v = .ok r ↔ Record v r := by
  unfold fromString
  cases h : parseInts v with
  | error e =>
    constructor
    · intro h; cases h
    · rintro (h' | ⟨h', _⟩) <;> rw [(parseInts_iff _ _).2 h'] at h <;> cases h
  | ok l =>
    have hl := (parseInts_iff _ _).1 h
    have det : ∀ l', Numbers v l' → l' = l := by
      intro l' h'
      rw [(parseInts_iff _ _).2 h'] at h
      injection h
    change (match l with
      | [] => Except.ok (⟨0, 0⟩ : WordInfo)
      | [a] => .ok ⟨a, 0⟩
      | [a, b] => .ok ⟨a, b⟩
      | _ => Except.error Err.typeError) = _ ↔ _
    rcases l with _ | ⟨a, _ | ⟨b, _ | ⟨c, m⟩⟩⟩
    · cases hl
    · constructor
      · intro h; injection h with h; subst h; exact .inr ⟨hl, rfl⟩
      · rintro (h' | ⟨h', h2⟩)
        · have := det _ h'; cases this
        · have := det _ h'
          injection this with this
          cases r; subst this; dsimp only at h2; subst h2; rfl
    · constructor
      · intro h; injection h with h; subst h; exact .inl hl
      · rintro (h' | ⟨h', h2⟩)
        · have := det _ h'
          injection this with h1 h2
          injection h2 with h2
          cases r; subst h1 h2; rfl
        · have := det _ h'; cases this
    · constructor
      · intro h; cases h
      · rintro (h' | ⟨h', h2⟩)
        · have := det _ h'; cases this
        · have := det _ h'; cases this

theorem parse_error {s : List Char} {e : Err} (h : parseInts s = .error e) : e = .valueError := by
  have hd : ∀ (s : List Char) acc e, parseDigits acc s = .error e → e = .valueError := by
    intro s
    induction s with
    | nil => intro acc e h; cases h
    | cons c r ih =>
      intro acc e h
      simp only [parseDigits] at h
      split at h
      · exact ih _ _ h
      · injection h with h; exact h.symm
  have hn : ∀ (s : List Char) e, parseNat s = .error e → e = .valueError := by
    intro s e h
    cases s with
    | nil => injection h with h; exact h.symm
    | cons c r => exact hd _ _ _ h
  have hm : ∀ {β : Type} (s : List Char) (f : Nat → β) e, (parseNat s).map f = .error e → e = .valueError := by
    intro β s f e h
    cases h2 : parseNat s with
    | ok n => rw [h2] at h; cases h
    | error e' => rw [h2] at h; injection h with h; exact h ▸ hn _ _ h2
  have hi : ∀ (s : List Char) e, parseInt s = .error e → e = .valueError := by
    intro s e h
    unfold parseInt at h
    split at h
    · exact hm _ _ _ h
    · exact hm _ _ _ h
  have : ∀ (l : List (List Char)) e, l.mapM parseInt = .error e → e = .valueError := by
    intro l
    induction l with
    | nil => intro e h; cases h
    | cons a l ih =>
      intro e h
      rw [List.mapM_cons] at h
      cases h1 : parseInt a with
      | error e' => rw [h1] at h; injection h with h; exact h ▸ hi _ _ h1
      | ok b =>
        cases h2 : l.mapM parseInt with
        | error e' => rw [h1, h2] at h; injection h with h; exact h ▸ ih _ h2
        | ok bs => rw [h1, h2] at h; cases h
  exact this _ _ h

theorem from_error {s : List Char} {e : Err} (h : fromString s = .error e) : e = .valueError ∨ e = .typeError := by
  unfold fromString at h
  cases h2 : parseInts s with
  | error e' => rw [h2] at h; injection h with h; exact .inl (h ▸ parse_error h2)
  | ok l =>
    rw [h2] at h
    rcases l with _ | ⟨a, _ | ⟨b, _ | ⟨c, m⟩⟩⟩
    · cases h
    · cases h
    · cases h
    · injection h with h; exact .inr h.symm

theorem readWords_cases (sk : W) : ∀ (l : List (W × List Char)) (d : Dict W WordInfo),
    (∃ e, readWords sk l d = .error e ∧ (e = .valueError ∨ e = .typeError) ∧
      ∃ x ∈ l, x.1 ≠ sk ∧ ∀ r, ¬ Record x.2 r) ∨
    (∀ x ∈ l, x.1 ≠ sk → ∃ r, fromString x.2 = .ok r) := by
  intro l
  induction l with
  | nil => intro d; exact .inr (by simp)
  | cons x l ih =>
    obtain ⟨k, v⟩ := x
    intro d
    by_cases hk : k = sk
    · rcases ih d with ⟨e, h1, h2, x, h3, h4⟩ | h
      · exact .inl ⟨e, by simp only [readWords]; rw [if_pos hk]; exact h1, h2, x, by simp [h3], h4⟩
      · refine .inr (fun x hx hne => ?_)
        rcases List.mem_cons.1 hx with rfl | hx
        · exact absurd hk hne
        · exact h x hx hne
    · cases hf : fromString v with
      | error e =>
        refine .inl ⟨e, by simp only [readWords]; rw [if_neg hk, hf], from_error hf, (k, v), by simp, hk, ?_⟩
        intro r hr
        rw [(fromString_iff _ _).2 hr] at hf
        cases hf
      | ok r =>
        rcases ih (d.set k r) with ⟨e, h1, h2, x, h3, h4⟩ | h
        · exact .inl ⟨e, by simp only [readWords]; rw [if_neg hk, hf]; exact h1, h2, x, by simp [h3], h4⟩
        · refine .inr (fun x hx hne => ?_)
          rcases List.mem_cons.1 hx with rfl | hx
          · exact ⟨r, hf⟩
          · exact h x hx hne

/-- The values of the file have only characters about which `int` of the model and of Python
agree: ASCII, and no white space, plus sign or underscore. -/
def AsciiValues (data : Dict W (List Char)) : Prop :=
  ∀ x ∈ data.entries, ∀ c ∈ x.2, 32 < c.toNat ∧ c.toNat < 127 ∧ c ≠ '+' ∧ c ≠ '_'

/-- What a file must say to be loaded: two numbers for the totals, and for each word one number
or two. -/
def WellFormed (sk : W) (data : Dict W (List Char)) : Prop :=
  (∃ s h p, data.get? sk = some s ∧ Numbers s [h, p]) ∧
    ∀ w v, w ≠ sk → data.get? w = some v → ∃ r, Record v r

/-- **C34**, any file.  With a working module, whatever wrote the file: the constructor returns
if and only if the file is well formed, and the object then has the totals of the file, a
record for exactly the words of the file, and each record is what the value says, read with the
spam count first.  Otherwise it raises KeyError (no totals), ValueError or TypeError, and there
are no words. -/
theorem C34_any_file (md : CdbModule W B) (sk : W) (b : B) (data : Dict W (List Char))
    (hr : md.read b = .ok data) (hn : data.Nodup) (_ha : AsciiValues data) :
    ∃ res c', (cdbNew (some md) sk (some b) : Except Err Unit × Clf (Dict W WordInfo) K) = (res, c') ∧
      (res = .ok () ↔ WellFormed sk data) ∧
      (res = .ok () →
        (∀ s, data.get? sk = some s → Numbers s [c'.nham, c'.nspam]) ∧
        c'.store.get? sk = none ∧
        ∀ w, w ≠ sk →
          (data.get? w = none → c'.store.get? w = none) ∧
          ∀ v, data.get? w = some v → ∃ r, c'.store.get? w = some r ∧ Record v r) ∧
      ∀ e, res = .error e → c'.store = Dict.empty ∧
        (e = .keyError ↔ data.get? sk = none) ∧ (e = .keyError ∨ e = .valueError ∨ e = .typeError) := by
  have run : (cdbNew (some md) sk (some b) : Except Err Unit × Clf (Dict W WordInfo) K) =
      cdbLoadFile md sk b (Clf.new false Dict.empty) := rfl
  rw [run]
  unfold cdbLoadFile
  rw [hr]
  dsimp only
  cases hs : data.get? sk with
  | none =>
    refine ⟨_, _, rfl, ⟨fun h => (by cases h), ?_⟩, fun h => (by cases h), ?_⟩
    · rintro ⟨⟨s, h, p, h1, _⟩, _⟩; rw [hs] at h1; cases h1
    · intro e h; injection h with h; subst h; exact ⟨rfl, by simp, .inl rfl⟩
  | some s =>
    dsimp only
    have bad : ∀ e, (∀ h p, ¬ Numbers s [h, p]) → (e = .valueError) →
        ∀ c' : Clf (Dict W WordInfo) K, c'.store = Dict.empty → ∃ res c'', ((Except.error e : Except Err Unit), c') = (res, c'') ∧
      (res = .ok () ↔ WellFormed sk data) ∧
      (res = .ok () →
        (∀ s', some s = some s' → Numbers s' [c''.nham, c''.nspam]) ∧
        c''.store.get? sk = none ∧
        ∀ w, w ≠ sk →
          (data.get? w = none → c''.store.get? w = none) ∧
          ∀ v, data.get? w = some v → ∃ r, c''.store.get? w = some r ∧ Record v r) ∧
      ∀ e, res = .error e → c''.store = Dict.empty ∧
        (e = .keyError ↔ some s = none) ∧ (e = .keyError ∨ e = .valueError ∨ e = .typeError) := by
      intro e hno he c' hc
      refine ⟨_, _, rfl, ⟨fun h => (by cases h), ?_⟩, fun h => (by cases h), ?_⟩
      · rintro ⟨⟨s', h, p, h1, h2⟩, _⟩
        rw [hs] at h1; injection h1 with h1; subst h1
        exact absurd h2 (hno h p)
      · intro e' h; injection h with h; subst h; subst he
        exact ⟨hc, by simp, .inr (.inl rfl)⟩
    cases hp : parseInts s with
    | error e =>
      refine bad e (fun h p hnum => ?_) (parse_error hp) _ rfl
      rw [(parseInts_iff _ _).2 hnum] at hp; cases hp
    | ok l =>
      have det : ∀ l', Numbers s l' → l' = l := by
        intro l' h'
        rw [(parseInts_iff _ _).2 h'] at hp
        injection hp
      have hl := (parseInts_iff _ _).1 hp
      rcases l with _ | ⟨nh, _ | ⟨np, _ | ⟨x, m⟩⟩⟩
      · exact bad _ (fun h p hh => by have := det _ hh; cases this) rfl _ rfl
      · exact bad _ (fun h p hh => by have := det _ hh; cases this) rfl _ rfl
      · dsimp only
        rcases readWords_cases sk data.entries Dict.empty with ⟨e, h1, h2, x, h3, h4, h5⟩ | hall
        · rw [h1]
          refine ⟨_, _, rfl, ⟨fun h => (by cases h), ?_⟩, fun h => (by cases h), ?_⟩
          · rintro ⟨_, hw⟩
            obtain ⟨r, hr⟩ := hw x.1 x.2 h4 (Dict.get?_of_mem hn h3)
            exact absurd hr (h5 r)
          · intro e' h; injection h with h; subst h
            refine ⟨rfl, ?_, .inr h2⟩
            rcases h2 with rfl | rfl <;> simp
        · obtain ⟨d', g1, g2, g3⟩ := readWords_spec sk
            (fun w => (data.get? w).bind (fun v => (fromString v).toOption)) data.entries Dict.empty
            Dict.nodup_empty hn (by
              intro e he hne
              obtain ⟨r, hr⟩ := hall e he hne
              exact ⟨r, by rw [Dict.get?_of_mem hn he]; simp [hr, Except.toOption], hr⟩)
          rw [g1]
          have key : ∀ w v, w ≠ sk → data.get? w = some v → ∃ r, fromString v = .ok r :=
            fun w v hw hv => hall (w, v) (Dict.mem_entries_of_get? hv) hw
          refine ⟨_, _, rfl, ⟨fun _ => ⟨⟨s, nh, np, hs, hl⟩, ?_⟩, fun _ => rfl⟩, fun _ => ⟨?_, ?_, ?_⟩, ?_⟩
          · intro w v hw hv
            obtain ⟨r, hr⟩ := key w v hw hv
            exact ⟨r, (fromString_iff _ _).1 hr⟩
          · intro s' h; injection h with h; subst h; exact hl
          · change d'.get? sk = none
            rw [g3]; simp [Dict.get?_empty]
          · intro w hw
            refine ⟨fun hnone => ?_, fun v hv => ?_⟩
            · change d'.get? w = none
              rw [g3, hnone]; simp [Dict.get?_empty]
            · obtain ⟨r, hr⟩ := key w v hw hv
              refine ⟨r, ?_, (fromString_iff _ _).1 hr⟩
              change d'.get? w = some r
              rw [g3, if_pos ⟨hw, (Dict.mem_keys_iff data w).2 ⟨v, hv⟩⟩, hv]
              simp [hr, Except.toOption]
          · intro e h; cases h
      · exact bad _ (fun h p hh => by have := det _ hh; cases this) rfl _ rfl

/-- A file with totals and a word with one number. -/
example : Numbers "12,-3".toList [12, -3] ∧ Record "7".toList ⟨7, 0⟩ ∧ (∀ r, ¬ Record "1,2,3".toList r) ∧
    ∀ r, ¬ Record "1:".toList r := by
  refine ⟨(parseInts_iff _ _).1 (by decide), (fromString_iff _ _).1 (by decide), fun r h => ?_, fun r h => ?_⟩
  · have := (fromString_iff _ _).2 h
    have e : fromString "1,2,3".toList = .error .typeError := by decide
    rw [e] at this; cases this
  · have := (fromString_iff _ _).2 h
    have e : fromString "1:".toList = .error .valueError := by decide
    rw [e] at this; cases this

/-- The hypotheses of `C34_any_file` are met by a well-formed file that `store` never writes. -/
example : ∃ b data, (listModule Nat).read b = .ok data ∧ data.Nodup ∧ AsciiValues data ∧ WellFormed 0 data := by
  refine ⟨[(0, "12,3".toList), (5, "7".toList)], _, rfl, (by unfold Dict.Nodup Dict.keys; decide), ?_, ?_, ?_⟩
  · unfold AsciiValues; decide
  · exact ⟨_, 12, 3, rfl, (parseInts_iff _ _).1 (by decide)⟩
  · intro w v hw hv
    have hm := Dict.mem_entries_of_get? hv
    rcases List.mem_cons.1 hm with h | h
    · exact absurd (congrArg Prod.fst h) hw
    · have h := congrArg Prod.snd (List.mem_singleton.1 h)
      subst h
      exact ⟨⟨7, 0⟩, (fromString_iff _ _).1 (by decide)⟩

end Sb.Props
