import Verif.Props.TreeTokens

/-
C122, C123: what was read from a text can be written and read again, with all its parts.
-/

set_option linter.unusedSectionVars false

namespace Sb.Props
open Py Py.Text Sb.Mail Sb.Tokenize Sb.Strip

/-! ### What the claims are about -/

mutual
/-- Types and boundaries as they should be: what is not multipart/* or message/* is a text,
every multipart/* has parts, and a boundary is a line without a colon that is not an outer
boundary without its last two hyphens.  (Nothing is said of the texts.) -/
def Usual (T : Types) (outer : List Txt) (d : Bool) : Tree → Prop
  | .text hs _ => TypeKept T d hs ∧ ∃ main sub, 47 ∉ main ∧ T.ctype hs d = main ++ 47 :: sub ∧ PrintsAsText main sub
  | .inner hs m => TypeKept T d hs ∧ (∃ sub, T.ctype hs d = txt "message/" ++ sub ∧
      underscores sub ≠ txt "delivery_status") ∧ Usual T outer false m
  | .uncut _ _ _ => False
  | .cut hs _ ms _ => TypeKept T d hs ∧ (∃ sub, T.ctype hs d = txt "multipart/" ++ sub) ∧
      ∃ b, T.boundary hs = some b ∧ OneLine b ∧ 58 ∉ b ∧ b ++ txt "--" ∉ outer ∧
        UsualAll T (b :: outer) (T.ctype hs d == txt "multipart/digest") ms
/-- The same for lists of parts. -/
def UsualAll (T : Types) (outer : List Txt) (d : Bool) : List Tree → Prop
  | [] => True
  | m :: ms => Usual T outer d m ∧ UsualAll T outer d ms
end

/-! ### Separators and lines -/

def EndOf (e : Txt) : Prop := e = [] ∨ e = [10] ∨ e = [13] ∨ e = [13, 10]

theorem sep_form {b l : Txt} {f : Bool} (h : sepOf b l = some f) : ∃ w e, (∀ c ∈ w, c = 32 ∨ c = 9) ∧ EndOf e ∧
    l = 45 :: 45 :: b ++ ((if f then txt "--" else []) ++ (w ++ e)) := by
  unfold sepOf at h
  split at h
  · rename_i hp
    obtain ⟨r, rfl⟩ := List.isPrefixOf_iff_prefix.1 hp
    have e : (45 :: 45 :: b ++ r).drop (b.length + 2) = r := by simp
    simp only [e] at h
    · obtain ⟨he, h⟩ := Option.ite_none_right_eq_some.1 h
      simp only [Option.some.injEq] at h
      have hw : ∀ q : Txt, ∀ c ∈ q.takeWhile Mail.isBlank, c = 32 ∨ c = 9 := by
        intro q c hc
        simpa [Mail.isBlank] using List.mem_takeWhile_imp hc
      cases f with
      | false =>
        rw [h] at he
        refine ⟨r.takeWhile Mail.isBlank, _, hw r, he, ?_⟩
        simp
      | true =>
        rw [h] at he
        obtain ⟨r', rfl⟩ := List.isPrefixOf_iff_prefix.1 h
        have e2 : (txt "--" ++ r').drop 2 = r' := rfl
        simp only [if_true, e2] at he
        refine ⟨r'.takeWhile Mail.isBlank, _, hw r', he, ?_⟩
        simp
  · cases h

theorem sep_some {b x e : Txt} (h : Separates b x) (he : EndOf e) : sepOf b (x ++ e) ≠ none := by
  have hd : ∀ w : Txt, (∀ c ∈ w, c = 32 ∨ c = 9) → (w ++ e).dropWhile Mail.isBlank = e := by
    intro w hw
    rw [List.dropWhile_append_of_pos (by intro c hc; rcases hw c hc with rfl | rfl <;> rfl)]
    rcases he with rfl | rfl | rfl | rfl <;> rfl
  obtain ⟨w, hw, rfl | rfl⟩ := h
  · have e0 : txt "--" ++ b ++ w ++ e = 45 :: 45 :: b ++ (w ++ e) := by simp [txt]
    unfold sepOf
    rw [e0, if_pos (by rw [List.isPrefixOf_iff_prefix]; exact List.prefix_append _ _)]
    have e1 : (45 :: 45 :: b ++ (w ++ e)).drop (b.length + 2) = w ++ e := by simp
    simp only [e1]
    have e2 : (txt "--").isPrefixOf (w ++ e) = false := by
      cases w with
      | nil => rcases he with rfl | rfl | rfl | rfl <;> rfl
      | cons c w => rcases hw c (by simp) with rfl | rfl <;> rfl
    rw [e2]
    simp only [Bool.false_eq_true, if_false, hd w hw]
    rw [if_pos (show e = [] ∨ e = [10] ∨ e = [13] ∨ e = [13, 10] from he)]
    simp
  · have e0 : txt "--" ++ b ++ txt "--" ++ w ++ e = 45 :: 45 :: b ++ (txt "--" ++ (w ++ e)) := by simp [txt]
    unfold sepOf
    rw [e0, if_pos (by rw [List.isPrefixOf_iff_prefix]; exact List.prefix_append _ _)]
    have e1 : (45 :: 45 :: b ++ (txt "--" ++ (w ++ e))).drop (b.length + 2) = txt "--" ++ (w ++ e) := by simp
    simp only [e1]
    have e2 : (txt "--").isPrefixOf (txt "--" ++ (w ++ e)) = true := by
      rw [List.isPrefixOf_iff_prefix]; exact List.prefix_append _ _
    have e3 : (txt "--" ++ (w ++ e)).drop 2 = w ++ e := rfl
    rw [e2]
    simp only [if_true, e3, hd w hw]
    rw [if_pos (show e = [] ∨ e = [10] ∨ e = [13] ∨ e = [13, 10] from he)]
    simp

/-- No line of the text is a separator. -/
def Clean (b t : Txt) : Prop := ∀ x ∈ lines t, ¬ Separates b x

theorem not_sep_nil (b : Txt) : ¬ Separates b [] := by
  rintro ⟨w, -, h | h⟩ <;> cases h

/-- Lines with their ends; only the last one can be without. -/
def Lined : List Txt → Prop
  | [] => True
  | l :: ls => (∃ y e, l = y ++ e ∧ OneLine y ∧ EndOf e ∧ (e = [] → ls = [])) ∧ Lined ls

/-- The same, none of them a separator. -/
def CleanLines (b : Txt) : List Txt → Prop
  | [] => True
  | l :: ls => (∃ y e, l = y ++ e ∧ OneLine y ∧ EndOf e ∧ (e = [] → ls = []) ∧ ¬ Separates b y) ∧ CleanLines b ls

theorem Lined.clean {b : Txt} {ls : List Txt} (h : Lined ls) (hs : ∀ l ∈ ls, sepOf b l = none) : CleanLines b ls := by
  induction ls with
  | nil => trivial
  | cons l ls ih =>
    obtain ⟨⟨y, e, rfl, h1, h2, h3⟩, h4⟩ := h
    exact ⟨⟨y, e, rfl, h1, h2, h3, fun hs' => sep_some hs' h2 (hs _ (by simp))⟩, ih h4 (fun l hl => hs l (by simp [hl]))⟩

theorem Lined.sublist {a ls : List Txt} (hs : a.Sublist ls) (h : Lined ls) : Lined a := by
  induction hs with
  | slnil => trivial
  | cons l _ ih => exact ih h.2
  | cons_cons l hs ih =>
    obtain ⟨⟨y, e, h0, h1, h2, h3⟩, h4⟩ := h
    refine ⟨⟨y, e, h0, h1, h2, ?_⟩, ih h4⟩
    intro he
    rw [h3 he] at hs
    exact List.sublist_nil.1 hs

theorem Lined.ends {ls : List Txt} (h : Lined ls) : ∀ l ∈ ls, LineEnd l := by
  induction ls with
  | nil => intro l hl; cases hl
  | cons l ls ih =>
    obtain ⟨⟨y, e, rfl, h1, h2, -⟩, h4⟩ := h
    intro x hx
    rcases List.mem_cons.1 hx with rfl | hx
    · intro a c d b hy hc
      have hlen : y.length ≤ a.length := by
        by_contra hlt
        have h6 : (y ++ e)[a.length]? = some c := by rw [hy]; simp
        rw [List.getElem?_append_left (by omega)] at h6
        have := h1 c (List.mem_of_getElem? h6)
        omega
      obtain ⟨a', rfl⟩ : ∃ a', a = y ++ a' := by
        refine ⟨a.drop y.length, ?_⟩
        have h7 : (y ++ e).take y.length = (a ++ c :: d :: b).take y.length := by rw [hy]
        rw [List.take_left, List.take_append_of_le_length hlen] at h7
        calc a = a.take y.length ++ a.drop y.length := (List.take_append_drop _ _).symm
          _ = _ := by rw [← h7]
      rw [List.append_assoc] at hy
      have hy := List.append_cancel_left hy
      rcases h2 with rfl | rfl | rfl | rfl
      · simp at hy
      · cases a' with
        | nil => simp at hy
        | cons x a' => cases a' <;> simp at hy
      · cases a' with
        | nil => simp at hy
        | cons x a' => cases a' <;> simp at hy
      · cases a' with
        | nil => simp at hy; exact ⟨hy.1.symm, hy.2.1.symm, hy.2.2⟩
        | cons x a' =>
          cases a' with
          | nil => simp at hy
          | cons z a' => cases a' <;> simp at hy
    · exact ih h4 x hx

theorem readLines_lined (t : Txt) : Lined (readLines t) := by
  induction t using crlf_induction with
  | h0 => trivial
  | h1 r ih =>
    rw [readLines]
    exact ⟨⟨[], [13, 10], rfl, by simp [OneLine], by simp [EndOf], by simp⟩, ih⟩
  | h2 c r h ih =>
    rw [readLines_cons h]
    split
    · rename_i hc
      refine ⟨⟨[], [c], rfl, by simp [OneLine], ?_, by simp⟩, ih⟩
      rcases hc with rfl | rfl <;> simp [EndOf]
    · rename_i hc
      split
      · exact ⟨⟨[c], [], rfl, by simpa [OneLine] using hc, by simp [EndOf], by simp⟩, trivial⟩
      · rename_i l ls hl
        rw [hl] at ih
        obtain ⟨⟨y, e, rfl, h1, h2, h3⟩, h4⟩ := ih
        refine ⟨⟨c :: y, e, rfl, ?_, h2, h3⟩, h4⟩
        intro x hx
        rcases List.mem_cons.1 hx with rfl | hx
        · exact not_or.1 hc
        · exact h1 x hx

theorem lines_self {y : Txt} (h : OneLine y) : lines y = [y] := by
  have := lines_append h [] [] [] rfl
  simpa using this

theorem lines_oneCr {y : Txt} (h : OneLine y) (r : Txt) : ∀ x ∈ lines (y ++ 13 :: r), x = y ∨ x ∈ lines r := by
  have key : ∀ ls, lines (13 :: r) = [] :: ls → (∀ x ∈ ls, x ∈ lines r) →
      ∀ x ∈ lines (y ++ 13 :: r), x = y ∨ x ∈ lines r := by
    intro ls h1 h2 x hx
    rw [lines_append h _ _ _ h1, List.append_nil] at hx
    rcases List.mem_cons.1 hx with hx | hx
    · exact .inl hx
    · exact .inr (h2 x hx)
  by_cases h10 : ∃ s, r = 10 :: s
  · obtain ⟨s, rfl⟩ := h10
    exact key _ (lines_crlf s) (fun x hx => by rw [lines_cons_lf]; simp [hx])
  · refine key (lines r) ?_ (fun x hx => hx)
    rw [lines_cons (by intro s hs; exact h10 ⟨s, (List.cons.inj hs).2⟩)]
    simp

theorem CleanLines.clean {b : Txt} {ls : List Txt} (h : CleanLines b ls) : Clean b ls.flatten := by
  induction ls with
  | nil => intro x hx; simp [lines] at hx; rw [hx]; exact not_sep_nil b
  | cons l ls ih =>
    obtain ⟨⟨y, e, rfl, h1, h2, h3, h5⟩, h4⟩ := h
    have ih := ih h4
    intro x hx
    rw [List.flatten_cons, List.append_assoc] at hx
    rcases h2 with rfl | rfl | rfl | rfl
    · rw [h3 rfl] at hx
      simp only [List.flatten_nil, List.append_nil] at hx
      rw [lines_self h1] at hx
      rw [List.mem_singleton.1 hx]
      exact h5
    · rw [List.singleton_append, lines_oneLine h1] at hx
      rcases List.mem_cons.1 hx with rfl | hx
      · exact h5
      · exact ih x hx
    · rcases lines_oneCr h1 _ x hx with rfl | hx
      · exact h5
      · exact ih x hx
    · have e : lines (y ++ 13 :: 10 :: ls.flatten) = y :: lines ls.flatten := by
        have := lines_append h1 _ _ _ (lines_crlf ls.flatten)
        simpa using this
      have e2 : y ++ ([13, 10] ++ ls.flatten) = y ++ 13 :: 10 :: ls.flatten := by simp
      rw [e2, e] at hx
      rcases List.mem_cons.1 hx with rfl | hx
      · exact h5
      · exact ih x hx

theorem cutEnd_line {y e : Txt} (h : OneLine y) (he : EndOf e) : cutEnd (y ++ e) = y := by
  have hy : ∀ c r, y.reverse = c :: r → c ≠ 13 ∧ c ≠ 10 := by
    intro c r hr
    exact h c (by rw [← List.mem_reverse, hr]; simp)
  rcases he with rfl | rfl | rfl | rfl
  · rw [List.append_nil, cutEnd]
    split
    · rename_i hr; exact absurd rfl (hy _ _ hr).2
    · rename_i hr; exact absurd rfl (hy _ _ hr).2
    · rename_i hr; exact absurd rfl (hy _ _ hr).1
    · rfl
  · rw [cutEnd]
    simp only [List.reverse_append, List.reverse_singleton, List.singleton_append]
    split
    · rename_i hr; simp only [List.cons.injEq, true_and] at hr; exact absurd rfl (hy _ _ hr).1
    · rename_i hr; simp only [List.cons.injEq, true_and] at hr; rw [← hr, List.reverse_reverse]
    · rename_i hr; simp at hr
    · rename_i h1 h2 h3; exact absurd rfl (h2 _)
  · rw [cutEnd]
    simp
  · exact cutEnd_crlf y

theorem CleanLines.cutLast {b : Txt} {ls : List Txt} (h : CleanLines b ls) (hne : ls ≠ []) :
    CleanLines b (ls.dropLast ++ [cutEnd (ls.getLastD [])]) := by
  induction ls with
  | nil => exact absurd rfl hne
  | cons l ls ih =>
    obtain ⟨⟨y, e, h0, h1, h2, h3, h5⟩, h4⟩ := h
    cases ls with
    | nil =>
      simp only [List.dropLast_singleton, List.nil_append, List.getLastD_cons, List.getLastD_nil]
      rw [h0, cutEnd_line h1 h2]
      exact ⟨⟨y, [], by simp, h1, by simp [EndOf], by simp, h5⟩, trivial⟩
    | cons k ls =>
      have := ih h4 (by simp)
      rw [List.dropLast_cons_of_ne_nil (by simp), List.cons_append, List.getLastD_cons]
      rw [List.getLastD_cons] at this ⊢
      refine ⟨⟨y, e, h0, h1, h2, ?_, h5⟩, this⟩
      intro he
      exact absurd (h3 he) (by simp)

theorem lines_more (u : Txt) : ∀ e, e = [10] ∨ e = [13] ∨ e = [13, 10] → lines u <+: lines (u ++ e) := by
  induction u using crlf_induction with
  | h0 => intro e he; rcases he with rfl | rfl | rfl <;> simp [lines]
  | h1 r ih =>
    intro e he
    rw [List.cons_append, List.cons_append, lines_crlf, lines_crlf]
    exact (List.prefix_cons_inj _).2 (ih e he)
  | h2 c r h ih =>
    intro e he
    by_cases hr : c = 13 ∧ r = [] ∧ e = [10]
    · obtain ⟨rfl, rfl, rfl⟩ := hr
      simp [lines]
    · have h' : ∀ s, c :: (r ++ e) ≠ 13 :: 10 :: s := by
        intro s hs
        cases r with
        | nil =>
          rcases he with rfl | rfl | rfl
          · simp at hs; exact hr ⟨hs.1, rfl, rfl⟩
          · simp at hs
          · simp at hs
        | cons x r => simp at hs; exact h r (by rw [hs.1, hs.2.1])
      rw [List.cons_append, lines_cons h, lines_cons h']
      split
      · exact (List.prefix_cons_inj _).2 (ih e he)
      · have := ih e he
        cases h1 : lines r with
        | nil => exact absurd h1 (lines_ne r)
        | cons l ls =>
          rw [h1] at this
          obtain ⟨q, hq⟩ := this
          rw [List.cons_append] at hq
          rw [← hq]
          simp only
          rw [← List.cons_append]
          exact List.prefix_append _ _

theorem Clean.cutEnd {b t : Txt} (h : Clean b t) : Clean b (cutEnd t) := by
  have key : Mail.cutEnd t = t ∨ ∃ e, (e = [10] ∨ e = [13] ∨ e = [13, 10]) ∧ t = Mail.cutEnd t ++ e := by
    rw [Mail.cutEnd]
    have ht : t = t.reverse.reverse := (List.reverse_reverse t).symm
    split
    · rename_i r hr; right; refine ⟨[13, 10], by simp, ?_⟩; rw [hr] at ht; rw [ht]; simp
    · rename_i r _ hr; right; refine ⟨[10], by simp, ?_⟩; rw [hr] at ht; rw [ht]; simp
    · rename_i r hr; right; refine ⟨[13], by simp, ?_⟩; rw [hr] at ht; rw [ht]; simp
    · left; rfl
  rcases key with hk | ⟨e, he, hk⟩
  · rw [hk]; exact h
  · intro x hx
    refine h x ?_
    rw [hk]
    exact (lines_more _ e he).subset hx

theorem Clean.written {b t : Txt} (mg : Bool) (h : Clean b t) : Clean b (written mg t) := by
  intro x hx
  rw [Mail.written, lines_toLf] at hx
  cases mg with
  | false => exact h x hx
  | true =>
    rw [if_pos rfl] at hx
    have hq : ∀ y, ¬ Separates b y → ¬ Separates b (quoteFrom y) := by
      intro y hy
      unfold quoteFrom
      split
      · rintro ⟨w, -, h | h⟩ <;> cases h
      · exact hy
    cases hlt : lines t with
    | nil => exact absurd hlt (lines_ne t)
    | cons l ls =>
      obtain ⟨l', ls', h1, h2, h3, -⟩ := lines_mangle t true l ls hlt
      rw [h1] at hx
      rw [Clean, hlt] at h
      rcases List.mem_cons.1 hx with rfl | hx
      · rcases h3 with rfl | ⟨-, rfl⟩
        · exact h _ (by simp)
        · exact hq _ (h _ (by simp))
      · have h' : ∀ x ∈ ls, ¬ Separates b x := fun x hx => h x (by simp [hx])
        clear h1 h hlt
        induction h2 with
        | nil => cases hx
        | @cons a c as cs hac _ ih =>
          rcases List.mem_cons.1 hx with rfl | hx
          · rcases hac with rfl | rfl
            · exact h' _ (by simp)
            · exact hq _ (h' _ (by simp))
          · exact ih (by simp [hx]) hx (fun z hz => h' z (by simp [hz]))

theorem lines_after (a y : Txt) : ∀ z ∈ lines y, z ∈ (lines (a ++ 10 :: y)).tail := by
  induction a using crlf_induction with
  | h0 => intro z hz; rw [List.nil_append, lines_cons_lf]; exact hz
  | h1 r ih =>
    intro z hz
    rw [List.cons_append, List.cons_append, lines_crlf]
    exact List.mem_of_mem_tail (ih z hz)
  | h2 c r h ih =>
    intro z hz
    by_cases hr : c = 13 ∧ r = []
    · obtain ⟨rfl, rfl⟩ := hr
      rw [List.cons_append, List.nil_append, lines_crlf]
      exact hz
    · have h' : ∀ s, c :: (r ++ 10 :: y) ≠ 13 :: 10 :: s := by
        intro s hs
        cases r with
        | nil => simp at hs; exact hr ⟨hs.1, rfl⟩
        | cons x r => simp at hs; exact h r (by rw [hs.1, hs.2.1])
      rw [List.cons_append, lines_cons h']
      have := ih z hz
      split
      · exact List.mem_of_mem_tail this
      · cases h1 : lines (r ++ 10 :: y) with
        | nil => exact absurd h1 (lines_ne _)
        | cons l ls => rw [h1] at this; exact this

theorem line_mem {x u : Txt} (h : LineOf x u) : x ∈ lines u := by
  obtain ⟨a, r, rfl, h1, h2, h3⟩ := h
  have h4 : x ∈ lines (x ++ r) := by
    rcases h3 with rfl | ⟨r', rfl⟩
    · rw [List.append_nil, lines_self h1]; simp
    · rw [lines_oneLine h1]; simp
  rcases h2 with rfl | ⟨a', rfl⟩
  · exact h4
  · have e : a' ++ [10] ++ x ++ r = a' ++ 10 :: (x ++ r) := by simp
    rw [e]
    exact List.mem_of_mem_tail (lines_after a' _ x h4)

/-- No line that is read is a separator. -/
def Unsep (b : Txt) (ls : List Txt) : Prop := ∀ l ∈ ls, sepOf b l = none

theorem unsep_nil (b : Txt) : Unsep b [] := by intro l hl; cases hl

theorem Clean.plain {b s : Txt} (hb : OneLine b) (hf : CrFree s) (h : Clean b s) : Unsep b (linesOf s) := by
  intro l hl
  obtain ⟨x, h1, h2, rfl⟩ := (linesOf_spec hf).2 l hl
  exact sep_none hb h1 (h x (line_mem h2))

theorem plain_avoids {b s : Txt} (hf : CrFree s) (h : Unsep b (linesOf s)) : Avoids b s := by
  rintro l ⟨a, r, rfl, h1, h2, h3⟩ hs
  refine sep_some hs (e := [13, 10]) (by simp [EndOf]) (h _ ?_)
  have h4 : (l ++ [13, 10]) ∈ linesOf (l ++ r) := by
    rcases h3 with rfl | ⟨r', rfl⟩
    · rw [List.append_nil, linesOf_oneLine h1]; simp
    · rw [linesOf, List.append_assoc, List.cons_append, read_append h1.free, linesOf_oneLine h1]; simp
  rcases h2 with rfl | ⟨a', rfl⟩
  · exact h4
  · have e : a' ++ [10] ++ l ++ r = a' ++ 10 :: (l ++ r) := by simp
    rw [linesOf, e, List.append_assoc, List.cons_append, read_append (fun hc => hf (by simp [hc]))]
    exact List.mem_append_right _ h4

theorem header_sep {b l : Txt} (hb : 58 ∉ b) (h : isHeaderLine l = true) : sepOf b l = none := by
  cases hs : sepOf b l with
  | none => rfl
  | some f =>
    exfalso
    obtain ⟨w, e, hw, he, rfl⟩ := sep_form hs
    have h58 : 58 ∉ 45 :: 45 :: b ++ ((if f then txt "--" else []) ++ (w ++ e)) := by
      intro hm
      simp only [List.mem_append, List.mem_cons] at hm
      rcases hm with (hm | hm | hm) | hm | hm | hm
      · omega
      · omega
      · exact hb hm
      · cases f
        · cases hm
        · exact absurd hm (by decide)
      · have := hw _ hm; omega
      · rcases he with rfl | rfl | rfl | rfl <;> exact absurd hm (by decide)
    unfold isHeaderLine at h
    simp only [Bool.or_eq_true, beq_iff_eq] at h
    rcases h with (h | h) | h
    · rw [List.isPrefixOf_iff_prefix] at h
      obtain ⟨q, hq⟩ := h
      rw [List.cons_append] at hq
      exact absurd (List.cons.inj (show 70 :: (txt "rom " ++ q) = _ from hq)).1 (by decide)
    · refine h58 ?_
      have h1 := List.mem_of_mem_head? (Option.mem_def.2 h)
      exact (List.dropWhile_sublist _).subset h1
    · rw [List.cons_append] at h
      exact absurd h (by simp [startsBlank, Mail.isBlank])

/-! ### What is read -/

mutual
/-- No text of the message contains a separator of an outer boundary, nor does a boundary
line of its own. -/
def CleanTree (T : Types) (b : Txt) : Tree → Prop
  | .text _ t => Clean b t
  | .inner _ m => CleanTree T b m
  | .uncut _ _ _ => True
  | .cut hs pre ms epi => (∀ q, pre = some q → Clean b q) ∧ CleanTrees T b ms ∧ (∀ q, epi = some q → Clean b q) ∧
      ∀ b', T.boundary hs = some b' → ¬ Separates b (45 :: 45 :: b')
/-- The same for lists of parts. -/
def CleanTrees (T : Types) (b : Txt) : List Tree → Prop
  | [] => True
  | m :: ms => CleanTree T b m ∧ CleanTrees T b ms
end

mutual
/-- What holds for every message that was read. -/
def AsRead (T : Types) : Tree → Prop
  | .text hs _ => SoundHeaders hs
  | .inner hs m => SoundHeaders hs ∧ AsRead T m
  | .uncut hs t _ => SoundHeaders hs ∧ ∀ b, T.boundary hs = some b → Clean b t
  | .cut hs pre ms _ => SoundHeaders hs ∧ ms ≠ [] ∧ AsReads T ms ∧
      ∀ b, T.boundary hs = some b → (∀ q, pre = some q → Clean b q) ∧ CleanTrees T b ms
/-- The same for lists of parts. -/
def AsReads (T : Types) : List Tree → Prop
  | [] => True
  | m :: ms => AsRead T m ∧ AsReads T ms
end

theorem cleanTrees_iff (T : Types) (b : Txt) (ms : List Tree) : CleanTrees T b ms ↔ ∀ m ∈ ms, CleanTree T b m := by
  induction ms with
  | nil => simp [CleanTrees]
  | cons m ms ih => rw [CleanTrees, ih]; simp

theorem asReads_iff (T : Types) (ms : List Tree) : AsReads T ms ↔ ∀ m ∈ ms, AsRead T m := by
  induction ms with
  | nil => simp [AsReads]
  | cons m ms ih => rw [AsReads, ih]; simp

theorem trimEpilogue_clean {b : Txt} {e : Option Txt} (h : ∀ q, e = some q → Clean b q) :
    ∀ q, trimEpilogue e = some q → Clean b q := by
  intro q hq
  cases e with
  | none => cases hq
  | some e =>
    rw [trimEpilogue] at hq
    split at hq
    · cases hq
    · cases hq; exact (h e rfl).cutEnd

theorem trimLast_clean (T : Types) (b : Txt) : ∀ m, CleanTree T b m → CleanTree T b (trimLast m)
  | .text _ _, h => by rw [trimLast, CleanTree]; rw [CleanTree] at h; exact h.cutEnd
  | .inner _ m, h => by rw [trimLast, CleanTree]; rw [CleanTree] at h; exact trimLast_clean T b m h
  | .uncut _ _ _, _ => by rw [trimLast, CleanTree]; trivial
  | .cut _ _ _ _, h => by
    rw [trimLast, CleanTree]
    rw [CleanTree] at h
    exact ⟨h.1, h.2.1, trimEpilogue_clean h.2.2.1, h.2.2.2⟩

theorem trimLast_asRead (T : Types) : ∀ m, AsRead T m → AsRead T (trimLast m)
  | .text _ _, h => by rw [trimLast, AsRead]; rw [AsRead] at h; exact h
  | .inner _ m, h => by rw [trimLast, AsRead]; rw [AsRead] at h; exact ⟨h.1, trimLast_asRead T m h.2⟩
  | .uncut _ _ _, h => by rw [trimLast, AsRead]; rw [AsRead] at h; exact h
  | .cut _ _ _ _, h => by rw [trimLast, AsRead]; rw [AsRead] at h; exact h

theorem takeHeaders_sublist (ls : List Txt) : ((takeHeaders ls).1 ++ (takeHeaders ls).2).Sublist ls := by
  induction ls with
  | nil => simp [takeHeaders]
  | cons l ls ih =>
    rw [takeHeaders]
    split
    · exact ih.cons_cons l
    · split
      · exact List.sublist_cons_self _ _
      · exact List.Sublist.refl _

theorem parseFields_backs (ls : List Txt) : ∀ first cur, (parseFields first cur ls).back.Sublist ls := by
  induction ls with
  | nil => intro first cur; rw [parseFields]
  | cons l ls ih =>
    intro first cur
    rw [parseFields]
    split
    · exact (ih _ _).cons l
    · simp only
      split
      · split
        · exact (ih _ _).cons l
        · split
          · rename_i h; rw [h]
          · exact (ih _ _).cons l
      · split
        · exact (ih _ _).cons l
        · exact (ih _ _).cons l

theorem rest_sublist (ls : List Txt) :
    ((parseFields true [] (takeHeaders ls).1).back ++ (takeHeaders ls).2).Sublist ls :=
  ((parseFields_backs _ _ _).append (List.Sublist.refl _)).trans (takeHeaders_sublist ls)

theorem preamble_sublist (b : Txt) (ls : List Txt) : (preambleOf b ls).1.Sublist ls ∧ Unsep b (preambleOf b ls).1 ∧
    ∀ r, (preambleOf b ls).2 = some r → r.Sublist ls ∧ ∃ l ∈ ls, sepOf b l = some false := by
  induction ls with
  | nil => rw [preambleOf]; exact ⟨List.Sublist.refl _, unsep_nil b, by intro r hr; cases hr⟩
  | cons l ls ih =>
    rw [preambleOf]
    split
    · rename_i h
      obtain ⟨h1, h2, h3⟩ := ih
      refine ⟨h1.cons_cons l, ?_, ?_⟩
      · intro x hx
        rcases List.mem_cons.1 hx with rfl | hx
        · exact h
        · exact h2 x hx
      · intro r hr
        obtain ⟨h4, x, h5, h6⟩ := h3 r hr
        exact ⟨h4.cons l, x, by simp [h5], h6⟩
    · exact ⟨List.nil_sublist _, unsep_nil b, by intro r hr; cases hr⟩
    · rename_i h
      refine ⟨List.nil_sublist _, unsep_nil b, ?_⟩
      intro r hr
      cases hr
      exact ⟨List.sublist_cons_self _ _, l, by simp, h⟩

theorem segments_sublist (b : Txt) (ls : List Txt) : ∀ fresh, (segments b fresh ls).1 ≠ [] ∧
    (∀ s ∈ (segments b fresh ls).1, s.Sublist ls ∧ Unsep b s) ∧
    ∀ r, (segments b fresh ls).2 = some r → r.Sublist ls := by
  induction ls with
  | nil =>
    intro fresh
    rw [segments]
    refine ⟨by simp, ?_, by intro r hr; cases hr⟩
    intro s hs
    rw [List.mem_singleton.1 hs]
    exact ⟨List.Sublist.refl _, unsep_nil b⟩
  | cons l ls ih =>
    intro fresh
    rw [segments]
    split
    · rename_i h
      obtain ⟨h1, h2, h3⟩ := ih false
      refine ⟨?_, ?_, fun r hr => (h3 r hr).cons l⟩
      · cases (segments b false ls).1 <;> simp [addFirst]
      · cases hs : (segments b false ls).1 with
        | nil => exact absurd hs h1
        | cons s ss =>
          intro x hx
          rw [hs] at h2
          simp only [addFirst] at hx
          rcases List.mem_cons.1 hx with rfl | hx
          · obtain ⟨h4, h5⟩ := h2 s (by simp)
            refine ⟨h4.cons_cons l, ?_⟩
            intro y hy
            rcases List.mem_cons.1 hy with rfl | hy
            · exact h
            · exact h5 y hy
          · obtain ⟨h4, h5⟩ := h2 x (by simp [hx])
            exact ⟨h4.cons l, h5⟩
    · obtain ⟨h1, h2, h3⟩ := ih true
      split
      · exact ⟨h1, fun s hs => ⟨(h2 s hs).1.cons l, (h2 s hs).2⟩, fun r hr => (h3 r hr).cons l⟩
      · split
        · refine ⟨by simp, ?_, ?_⟩
          · intro s hs
            rw [List.mem_singleton.1 hs]
            exact ⟨List.nil_sublist _, unsep_nil b⟩
          · intro r hr
            cases hr
            exact List.sublist_cons_self _ _
        · refine ⟨by simp, ?_, fun r hr => (h3 r hr).cons l⟩
          intro s hs
          rcases List.mem_cons.1 hs with rfl | hs
          · exact ⟨List.nil_sublist _, unsep_nil b⟩
          · exact ⟨(h2 s hs).1.cons l, (h2 s hs).2⟩

theorem Unsep.sublist {b : Txt} {a ls : List Txt} (h : Unsep b ls) (hs : a.Sublist ls) : Unsep b a :=
  fun l hl => h l (hs.subset hl)

theorem preamble_clean {b : Txt} {p : List Txt} {q : Txt} (hl : Lined p) (hs : Unsep b p)
    (hq : (if p = [] then none else some (p.dropLast.flatten ++ cutEnd (p.getLastD []))) = some q) : Clean b q := by
  split at hq
  · cases hq
  · rename_i hne
    cases hq
    have := ((hl.clean hs).cutLast hne).clean
    simpa using this

theorem kind_boundary {T : Types} {hs : Headers} {d : Bool} {o : Option Txt} {dg : Bool}
    (h : T.kind hs d = .multipart o dg) : T.boundary hs = o := by
  unfold Types.kind at h
  simp only at h
  split at h
  · cases h
  · split at h
    · simp only [BodyKind.multipart.injEq] at h
      exact h.1
    · cases h

theorem readTree_clean (T : Types) (b : Txt) : ∀ n d ls, Lined ls → Unsep b ls → CleanTree T b (readTree T n d ls) := by
  intro n
  induction n with
  | zero => intro d ls hl hs; rw [readTree, CleanTree]; exact (hl.clean hs).clean
  | succ n ih =>
    intro d ls hl hs
    rw [readTree]
    have hr := rest_sublist ls
    revert hr
    generalize (parseFields true [] (takeHeaders ls).1).back ++ (takeHeaders ls).2 = rest
    intro hr
    have hl2 := hl.sublist hr
    have hs2 := hs.sublist hr
    cases hk : T.kind (parseFields true [] (takeHeaders ls).1).headers d with
    | text => simp only; rw [CleanTree]; exact (hl2.clean hs2).clean
    | message => simp only; rw [CleanTree]; exact ih _ _ hl2 hs2
    | multipart o dg =>
      cases o with
      | none => simp only; rw [CleanTree]; trivial
      | some b' =>
        simp only
        obtain ⟨p1, p2, p3⟩ := preamble_sublist b' rest
        cases hp : preambleOf b' rest with
        | mk p o =>
        rw [hp] at p1 p2 p3
        cases o with
        | none => simp only; rw [CleanTree]; trivial
        | some r =>
          simp only
          obtain ⟨r1, x, r2, r3⟩ := p3 r rfl
          obtain ⟨s1, s2, s3⟩ := segments_sublist b' r true
          rw [CleanTree]
          refine ⟨?_, ?_, ?_, ?_⟩
          · exact fun q hq => preamble_clean (hl2.sublist p1) (hs2.sublist p1) hq
          · rw [cleanTrees_iff]
            intro m hm
            obtain ⟨s, hs', rfl⟩ := List.mem_map.1 hm
            have h5 := (s2 s hs').1.trans r1
            exact trimLast_clean T b _ (ih _ _ (hl2.sublist h5) (hs2.sublist h5))
          · intro q hq
            obtain ⟨e, he, rfl⟩ := Option.map_eq_some_iff.1 hq
            have h5 := (s3 e he).trans r1
            exact ((hl2.sublist h5).clean (hs2.sublist h5)).clean
          · intro b'' hb hsep
            cases hb.symm.trans (kind_boundary hk)
            obtain ⟨w, e, hw, he, hx⟩ := sep_form r3
            have hx' : x = (45 :: 45 :: b' ++ w) ++ e := by rw [hx]; simp
            refine sep_some (b := b) (x := 45 :: 45 :: b' ++ w) ?_ he (hx' ▸ hs2 x r2)
            obtain ⟨v, hv, h6 | h6⟩ := hsep
            · refine ⟨v ++ w, ?_, .inl (by rw [h6]; simp)⟩
              intro c hc
              rcases List.mem_append.1 hc with hc | hc
              · exact hv c hc
              · exact hw c hc
            · refine ⟨v ++ w, ?_, .inr (by rw [h6]; simp)⟩
              intro c hc
              rcases List.mem_append.1 hc with hc | hc
              · exact hv c hc
              · exact hw c hc

/-- The characters that are allowed. -/
def Tame (c : Nat) : Prop := c < 128 ∧ c ≠ 11 ∧ c ≠ 12 ∧ c ≠ 28 ∧ c ≠ 29 ∧ c ≠ 30

theorem fields_sound {ls : List Txt} (hl : Lined ls) (hc : ∀ l ∈ ls, ∀ c ∈ l, Tame c) :
    SoundHeaders (parseFields true [] (takeHeaders ls).1).headers := by
  intro x hx
  obtain ⟨h1, v, h2, h3, h4⟩ := parseFields_readable (Q := Tame)
    (by intro c hc he; unfold Tame at hc; unfold Ends at he; omega) (takeHeaders ls).1 true [] (.inl rfl) (by
      intro l hm
      obtain ⟨p1, p2⟩ := takeHeaders_prefix ls
      exact ⟨p2 l hm, hl.ends l (p1.subset hm), hc l (p1.subset hm)⟩) x hx
  exact ⟨h1, .inr ⟨v, h2, fun c hc => (h4 c hc).1, h3⟩⟩

theorem readTree_asRead (T : Types) : ∀ n d ls, Lined ls → (∀ l ∈ ls, ∀ c ∈ l, Tame c) →
    AsRead T (readTree T n d ls) := by
  intro n
  induction n with
  | zero => intro d ls hl hs; rw [readTree, AsRead]; intro x hx; cases hx
  | succ n ih =>
    intro d ls hl hc
    rw [readTree]
    have hh := fields_sound hl hc
    have hr := rest_sublist ls
    revert hr
    generalize (parseFields true [] (takeHeaders ls).1).back ++ (takeHeaders ls).2 = rest
    intro hr
    have hl2 := hl.sublist hr
    have hc2 : ∀ l ∈ rest, ∀ c ∈ l, Tame c := fun l h => hc l (hr.subset h)
    cases hk : T.kind (parseFields true [] (takeHeaders ls).1).headers d with
    | text => simp only; rw [AsRead]; exact hh
    | message => simp only; rw [AsRead]; exact ⟨hh, ih _ _ hl2 hc2⟩
    | multipart o dg =>
      cases o with
      | none => simp only; rw [AsRead]; exact ⟨hh, fun b hb => by rw [kind_boundary hk] at hb; cases hb⟩
      | some b' =>
        simp only
        obtain ⟨p1, p2, p3⟩ := preamble_sublist b' rest
        cases hp : preambleOf b' rest with
        | mk p o =>
        rw [hp] at p1 p2 p3
        cases o with
        | none =>
          simp only
          rw [AsRead]
          refine ⟨hh, fun b hb => ?_⟩
          cases hb.symm.trans (kind_boundary hk)
          exact ((hl2.sublist p1).clean p2).clean
        | some r =>
          simp only
          obtain ⟨r1, x, r2, r3⟩ := p3 r rfl
          obtain ⟨s1, s2, s3⟩ := segments_sublist b' r true
          rw [AsRead]
          refine ⟨hh, by simpa using s1, ?_, ?_⟩
          · rw [asReads_iff]
            intro m hm
            obtain ⟨s, hs', rfl⟩ := List.mem_map.1 hm
            have h5 := (s2 s hs').1.trans r1
            exact trimLast_asRead T _ (ih _ _ (hl2.sublist h5) (fun l h => hc2 l (h5.subset h)))
          · intro b'' hb
            cases hb.symm.trans (kind_boundary hk)
            refine ⟨fun q hq => preamble_clean (hl2.sublist p1) p2 hq, ?_⟩
            rw [cleanTrees_iff]
            intro m hm
            obtain ⟨s, hs', rfl⟩ := List.mem_map.1 hm
            have h5 := (s2 s hs').1.trans r1
            exact trimLast_clean T b' _ (readTree_clean T b' _ _ _ (hl2.sublist h5) (s2 s hs').2)

/-! ### What is written -/

/-- The last boundary line of a part is no separator for the outer message. -/
theorem end_sep {b b' : Txt} (hb : OneLine b) (hb' : OneLine b') (h1 : ¬ Separates b (45 :: 45 :: b'))
    (h2 : b' ++ txt "--" ≠ b) :
    sepOf b (45 :: 45 :: b' ++ [13, 10]) = none ∧ sepOf b (45 :: 45 :: b' ++ 45 :: 45 :: [13, 10]) = none := by
  have o1 : OneLine (45 :: 45 :: b') := by
    intro c hc
    simp only [List.mem_cons] at hc
    rcases hc with rfl | rfl | hc
    · decide
    · decide
    · exact hb' c hc
  have o2 : OneLine (45 :: 45 :: b' ++ [45, 45]) := by
    intro c hc
    rcases List.mem_append.1 hc with hc | hc
    · exact o1 c hc
    · simp only [List.mem_cons, List.not_mem_nil, or_false, or_self] at hc; subst hc; decide
  refine ⟨sep_none hb o1 h1, ?_⟩
  have e : 45 :: 45 :: b' ++ 45 :: 45 :: [13, 10] = (45 :: 45 :: b' ++ [45, 45]) ++ [13, 10] := by simp
  rw [e]
  refine sep_none hb o2 ?_
  have hw0 : ∀ (x w : Txt), (∀ c ∈ w, c = 32 ∨ c = 9) → 45 :: 45 :: b' ++ [45, 45] = x ++ w → w = [] := by
    intro x w hw h
    rcases List.eq_nil_or_concat w with rfl | ⟨w', c, rfl⟩
    · rfl
    · exfalso
      have h3 : (45 :: 45 :: b' ++ [45]) ++ [45] = (x ++ w') ++ [c] := by simpa using h
      have h4 : [45] = [c] := List.append_inj_right' h3 rfl
      have hc := hw c (by simp)
      simp only [List.cons.injEq, and_true] at h4
      omega
  rintro ⟨w, hw, h | h⟩
  · have := hw0 _ _ hw h
    subst this
    refine h2 ?_
    have h3 : 45 :: 45 :: (b' ++ txt "--") = 45 :: 45 :: b := by simpa [txt] using h
    simpa using h3
  · have := hw0 _ _ hw h
    subst this
    refine h1 ⟨[], by simp, .inl ?_⟩
    have h3 : (45 :: 45 :: b') ++ [45, 45] = (45 :: 45 :: b) ++ [45, 45] := by simpa [txt] using h
    rw [List.append_cancel_right h3]
    simp [txt]

/-- What is to be shown of a message that is written inside of others. -/
def WrittenInside (P : Printer) (T : Types) (mg d : Bool) (outer : List Txt) (m : Tree) : Prop :=
  SoundTree P T mg d m ∧ ∀ b ∈ outer, ∀ x s, P.docOf T d m = .ok x → flatten mg false x = .ok s → Unsep b (linesOf s)

theorem inside_flatten {P : Printer} {T : Types} {mg d : Bool} {b : Txt} : ∀ {ms : List Tree} {xs ss},
    (∀ m ∈ ms, ∀ x s, P.docOf T d m = .ok x → flatten mg false x = .ok s → Unsep b (linesOf s)) →
    P.docsOf T d ms = .ok xs → flattenAll mg false xs = .ok ss → ∀ s ∈ ss, Unsep b (linesOf s) := by
  intro ms
  induction ms with
  | nil =>
    intro xs ss _ h1 h2
    rw [Printer.docsOf] at h1
    cases h1
    rw [flattenAll] at h2
    cases h2
    intro s hs; cases hs
  | cons m ms ih =>
    intro xs ss h h1 h2
    rw [Printer.docsOf] at h1
    split at h1
    · rename_i x hx
      split at h1
      · rename_i xs' hxs
        cases h1
        rw [flattenAll] at h2
        split at h2
        · rename_i s hs
          split at h2
          · rename_i ss' hss
            cases h2
            intro y hy
            rcases List.mem_cons.1 hy with rfl | hy
            · exact h m (by simp) x _ hx hs
            · exact ih (fun k hk => h k (by simp [hk])) hxs hss y hy
          · cases h2
        · cases h2
      · cases h1
    · cases h1

mutual
theorem usual_sound (P : Printer) (T : Types) (mg : Bool) : ∀ (m : Tree) (outer : List Txt) (d : Bool),
    Usual T outer d m → AsRead T m → (∀ b ∈ outer, CleanTree T b m ∧ OneLine b ∧ 58 ∉ b) →
    WrittenInside P T mg d outer m
  | .text hs t, outer, d, hu, hr, ho => by
    rw [Usual] at hu
    rw [AsRead] at hr
    obtain ⟨hk, main, sub, h47, hc, hp⟩ := hu
    refine ⟨.text hr hk h47 hc hp, ?_⟩
    intro b hb x s hx hs
    obtain ⟨hcl, hob, h58⟩ := ho b hb
    rw [CleanTree] at hcl
    obtain ⟨ts, hs', hl, h1, h2, h3, h4, h5, h6⟩ := headers_read P hr
    rw [Printer.docOf, h1] at hx
    cases hx
    rw [flatten, bodyOf.eq_def] at hs
    simp only [hc, handlerOf_text h47 hp] at hs
    have e : s = ts.flatten ++ 10 :: written mg t := by
      have := Except.ok.inj hs
      exact this.symm
    rw [e, linesOf, List.append_assoc, List.cons_append, h4]
    have := takeHeaders_prefix (hl ++ [13, 10] :: [])
    rw [h5] at this
    intro l hm
    rcases List.mem_append.1 hm with hm | hm
    · exact header_sep h58 (this.2 l hm)
    · rcases List.mem_cons.1 hm with rfl | hm
      · rfl
      · exact (hcl.written mg).plain hob (written_free _ _) l hm
  | .inner hs m, outer, d, hu, hr, ho => by
    rw [Usual] at hu
    rw [AsRead] at hr
    obtain ⟨hk, ⟨sub, hc, hp⟩, hu⟩ := hu
    obtain ⟨hr, hm⟩ := hr
    obtain ⟨i1, i2⟩ := usual_sound P T mg m outer false hu hm (fun b hb => by
      have := ho b hb; rw [CleanTree] at this; exact this)
    refine ⟨.inner hr hk hc hp i1, ?_⟩
    intro b hb x s hx hs
    obtain ⟨hcl, hob, h58⟩ := ho b hb
    obtain ⟨ts, hs', hl, h1, h2, h3, h4, h5, h6⟩ := headers_read P hr
    obtain ⟨x', s', j1, j2, j3, -⟩ := sound_reread i1
    rw [Printer.docOf, j1] at hx
    simp only [h1] at hx
    cases hx
    rw [flatten, bodyOf.eq_def] at hs
    simp only [hc, handlerOf_message, if_neg hp, j2] at hs
    have e : s = ts.flatten ++ 10 :: s' := by
      have := Except.ok.inj hs
      exact this.symm
    rw [e, linesOf, List.append_assoc, List.cons_append, h4]
    have := takeHeaders_prefix (hl ++ [13, 10] :: [])
    rw [h5] at this
    intro l hm
    rcases List.mem_append.1 hm with hm | hm
    · exact header_sep h58 (this.2 l hm)
    · rcases List.mem_cons.1 hm with rfl | hm
      · rfl
      · exact i2 b hb x' s' j1 (j2 false) l hm
  | .uncut _ _ _, _, _, hu, _, _ => by rw [Usual] at hu; cases hu
  | .cut hs pre ms epi, outer, d, hu, hr, ho => by
    rw [Usual] at hu
    rw [AsRead] at hr
    obtain ⟨hk, ⟨sub, hc⟩, b', hb', hob', h58', hout, hu⟩ := hu
    obtain ⟨hr, hne, hms, hown⟩ := hr
    obtain ⟨hpre, hcl'⟩ := hown b' hb'
    have i := usualAll_sound (P.inside (T.ctype hs d)) T mg ms (b' :: outer) _ hu hms (by
      intro b hb
      rcases List.mem_cons.1 hb with rfl | hb
      · exact ⟨hcl', hob', h58'⟩
      · have := ho b hb; rw [CleanTree] at this; exact ⟨this.1.2.1, this.2⟩)
    have hsound : SoundTree P T mg d (.cut hs pre ms epi) := by
      refine .cut hr hk hc hb' hob' hne (fun m hm => (i m hm).1) ?_ ?_
      · intro q hq
        exact plain_avoids (written_free mg q) (((hpre q hq).written mg).plain hob' (written_free mg q))
      · intro m hm x s hx hs
        obtain ⟨x2, s2, k1, k2, k3, -⟩ := sound_reread (i m hm).1
        have e1 := hx.symm.trans k1
        cases e1
        have e2 := hs.symm.trans (k2 false)
        cases e2
        exact plain_avoids k3 ((i m hm).2 b' (by simp) x s hx hs)
    refine ⟨hsound, ?_⟩
    intro b hb x s hx hs
    obtain ⟨hcl, hob, h58⟩ := ho b hb
    rw [CleanTree] at hcl
    obtain ⟨c1, -, c3, c4⟩ := hcl
    obtain ⟨t1, t2⟩ := end_sep hob hob' (c4 b' hb') (fun h => hout (h ▸ hb))
    obtain ⟨ts, hs', hl, h1, h2, h3, h4, h5, h6⟩ := headers_read P hr
    obtain ⟨xs, ss, j1, j2, j3⟩ := all_reread (fun m hm => sound_reread (i m hm).1)
    have hfree : ∀ s ∈ ss, CrFree s := by
      intro s hs
      obtain ⟨k, hk, rfl⟩ := List.mem_iff_getElem.1 hs
      have hlen := j3.length_eq
      obtain ⟨x, k1, k2, k3, -⟩ := (List.forall₂_iff_get.1 j3).2 k (by omega) hk
      exact k3
    have hparts := inside_flatten (fun m hm => (i m hm).2 b (by simp [hb])) j1 (j2 false)
    rw [Printer.docOf, j1] at hx
    simp only [h1] at hx
    cases hx
    rw [flatten, bodyOf.eq_def] at hs
    simp only [hc, handlerOf_multi, hb', Option.getD_some, j2] at hs
    have e : s = ts.flatten ++ 10 :: assemble mg pre epi b' ss := by
      have := Except.ok.inj hs
      exact this.symm
    have := takeHeaders_prefix (hl ++ [13, 10] :: [])
    rw [h5] at this
    have hbody : Unsep b (readLines (forceCrlf (assemble mg pre epi b' ss ++ [10]))) := by
      cases ss with
      | nil => cases j3; exact absurd rfl hne
      | cons s0 ss =>
      have o1 : OneLine (45 :: 45 :: b') := by
        intro c hc
        simp only [List.mem_cons] at hc
        rcases hc with rfl | rfl | hc
        · decide
        · decide
        · exact hob' c hc
      have hrest : Unsep b (readLines (forceCrlf ((45 :: 45 :: b') ++ 10 :: (s0 ++ (ss.flatMap (fun u => 10 :: 45 :: 45 :: b' ++ 10 :: u) ++
          10 :: 45 :: 45 :: b' ++ 45 :: 45 :: 10 :: (written mg (epi.getD []) ++ [10])))))) := by
        rw [read_append o1.free, linesOf_oneLine o1, body_lines hob' _ ss s0 hfree]
        intro l hl
        rcases List.mem_append.1 hl with hl | hl
        · rw [List.mem_singleton.1 hl]; exact t1
        · rcases List.mem_append.1 hl with hl | hl
          · exact hparts s0 (by simp) l hl
          · rcases List.mem_append.1 hl with hl | hl
            · obtain ⟨y, hy, hl⟩ := List.mem_flatMap.1 hl
              obtain ⟨u, hu, rfl⟩ := List.mem_map.1 hy
              rcases List.mem_cons.1 hl with rfl | hl
              · exact t1
              · exact hparts u (by simp [hu]) l hl
            · rcases List.mem_cons.1 hl with rfl | hl
              · exact t2
              · have hclean : Clean b (epi.getD []) := by
                  cases epi with
                  | none => intro x hx; simp [lines] at hx; rw [hx]; exact not_sep_nil b
                  | some q => exact c3 q rfl
                exact (hclean.written mg).plain hob (written_free _ _) l hl
      rw [assemble_eq]
      cases pre with
      | none => exact hrest
      | some q =>
        simp only [List.append_assoc]
        rw [List.singleton_append, read_append (written_free mg q)]
        simp only [List.append_assoc] at hrest
        intro l hl
        rcases List.mem_append.1 hl with hl | hl
        · exact ((c1 q rfl).written mg).plain hob (written_free _ _) l hl
        · exact hrest l hl
    rw [e, linesOf, List.append_assoc, List.cons_append, h4]
    intro l hm
    rcases List.mem_append.1 hm with hm | hm
    · exact header_sep h58 (this.2 l hm)
    · rcases List.mem_cons.1 hm with rfl | hm
      · rfl
      · exact hbody l hm
theorem usualAll_sound (P : Printer) (T : Types) (mg : Bool) : ∀ (ms : List Tree) (outer : List Txt) (d : Bool),
    UsualAll T outer d ms → AsReads T ms → (∀ b ∈ outer, CleanTrees T b ms ∧ OneLine b ∧ 58 ∉ b) →
    ∀ m ∈ ms, WrittenInside P T mg d outer m
  | [], _, _, _, _, _ => by intro m hm; cases hm
  | m :: ms, outer, d, hu, hr, ho => by
    rw [UsualAll] at hu
    rw [AsReads] at hr
    have h1 := usual_sound P T mg m outer d hu.1 hr.1 (fun b hb => by
      have := ho b hb; rw [CleanTrees] at this; exact ⟨this.1.1, this.2⟩)
    have h2 := usualAll_sound P T mg ms outer d hu.2 hr.2 (fun b hb => by
      have := ho b hb; rw [CleanTrees] at this; exact ⟨this.1.2, this.2⟩)
    intro k hk
    rcases List.mem_cons.1 hk with rfl | hk
    · exact h1
    · exact h2 k hk
end

theorem read_sound (P : Printer) (T : Types) (mg : Bool) (t : Txt) (ht : ∀ c ∈ t, Tame c)
    (h : Usual T [] false (readMail T t)) : SoundTree P T mg false (readMail T t) := by
  refine (usual_sound P T mg _ [] false h (readTree_asRead T _ _ _ (readLines_lined t) ?_) (by simp)).1
  intro l hl c hc
  refine ht c ?_
  rw [← readLines_flatten t]
  exact List.mem_flatten.2 ⟨l, hl, hc⟩

/-! ### The properties -/

/-- Whatever was read from a text can be written and is read again with the same parts, if
the types and boundaries are as they should be; the texts do not matter. -/
theorem C122_trip_partial (P : Printer) (T : Types) (mg : Bool) (t : Txt)
    (ht : ∀ c ∈ t, c < 128 ∧ c ≠ 11 ∧ c ≠ 12 ∧ c ≠ 28 ∧ c ≠ 29 ∧ c ≠ 30) (h : Usual T [] false (readMail T t)) :
    ∃ s, P.writeTree T mg (readMail T t) = .ok s ∧ SameTree mg (readMail T t) (readMail T s) :=
  C122_parts_partial P T mg _ (read_sound P T mg t ht h)

theorem line_end_eq {x y e f : Txt} (hx : OneLine x) (hy : OneLine y) (he : EndOf e) (hf : EndOf f)
    (h : x ++ e = y ++ f) : x = y := by
  have key : ∀ z g : Txt, OneLine z → EndOf g → (z ++ g).takeWhile (fun c => c != 13 && c != 10) = z := by
    intro z g hz hg
    rw [List.takeWhile_append_of_pos (by intro c hc; have := hz c hc; simp [this])]
    rcases hg with rfl | rfl | rfl | rfl <;> simp
  rw [← key x e hx he, h, key y f hy hf]

theorem sep_none_end {b x e : Txt} (hb : OneLine b) (hx : OneLine x) (he : EndOf e) (h : ¬ Separates b x) :
    sepOf b (x ++ e) = none := by
  cases hs : sepOf b (x ++ e) with
  | none => rfl
  | some f =>
    exfalso
    obtain ⟨w, g, hw, hg, heq⟩ := sep_form hs
    have e1 : 45 :: 45 :: b ++ ((if f then txt "--" else []) ++ (w ++ g)) =
        (45 :: 45 :: b ++ ((if f then txt "--" else []) ++ w)) ++ g := by simp
    rw [e1] at heq
    refine h (line_end_eq hx ?_ he hg heq ▸ ?_)
    · intro c hc
      simp only [List.mem_append, List.mem_cons] at hc
      rcases hc with (rfl | rfl | hc) | hc | hc
      · decide
      · decide
      · exact hb c hc
      · cases f
        · cases hc
        · simp [txt] at hc; omega
      · have := hw c hc; omega
    · cases f
      · exact ⟨w, hw, .inl (by simp [txt])⟩
      · exact ⟨w, hw, .inr (by simp [txt])⟩

theorem Lined.unsep {b : Txt} (hb : OneLine b) {ls : List Txt} (h : Lined ls) (hc : Clean b ls.flatten) : Unsep b ls := by
  induction ls with
  | nil => exact unsep_nil b
  | cons l ls ih =>
    obtain ⟨⟨y, e, rfl, h1, h2, h3⟩, h4⟩ := h
    have first : y ∈ lines (y ++ e ++ ls.flatten) ∧ ∀ z ∈ lines ls.flatten, z = [] ∨ z ∈ lines (y ++ e ++ ls.flatten) := by
      rcases h2 with rfl | rfl | rfl | rfl
      · rw [h3 rfl]
        simp only [List.flatten_nil, List.append_nil]
        rw [lines_self h1]
        exact ⟨by simp, by intro z hz; simp [lines] at hz; exact .inl hz⟩
      · rw [List.append_assoc, List.singleton_append, lines_oneLine h1]
        exact ⟨by simp, by intro z hz; simp [hz]⟩
      · by_cases h10 : ∃ s, ls.flatten = 10 :: s
        · obtain ⟨s, hs⟩ := h10
          rw [hs, lines_cons_lf, List.append_assoc]
          have e : lines (y ++ ([13] ++ 10 :: s)) = y :: lines s := by
            have := lines_append h1 _ _ _ (lines_crlf s)
            simpa using this
          rw [e]
          refine ⟨by simp, fun z hz => ?_⟩
          rcases List.mem_cons.1 hz with hz | hz
          · exact .inl hz
          · exact .inr (by simp [hz])
        · have e : lines (13 :: ls.flatten) = [] :: lines ls.flatten := by
            rw [lines_cons (by intro s hs; exact h10 ⟨s, (List.cons.inj hs).2⟩)]
            simp
          have e2 := lines_append h1 _ _ _ e
          rw [List.append_assoc, List.singleton_append, e2]
          exact ⟨by simp, by intro z hz; simp [hz]⟩
      · have e : lines (y ++ 13 :: 10 :: ls.flatten) = y :: lines ls.flatten := by
          have := lines_append h1 _ _ _ (lines_crlf ls.flatten)
          simpa using this
        have e2 : y ++ [13, 10] ++ ls.flatten = y ++ 13 :: 10 :: ls.flatten := by simp
        rw [e2, e]
        exact ⟨by simp, by intro z hz; simp [hz]⟩
    rw [List.flatten_cons] at hc
    intro x hx
    rcases List.mem_cons.1 hx with rfl | hx
    · exact sep_none_end hb h1 h2 (hc y first.1)
    · refine ih h4 ?_ x hx
      intro z hz
      rcases first.2 z hz with rfl | hz
      · exact not_sep_nil b
      · exact hc z hz

theorem preamble_all {b : Txt} {ls : List Txt} (h : Unsep b ls) : preambleOf b ls = (ls, none) := by
  induction ls with
  | nil => rfl
  | cons l ls ih => rw [preambleOf, h l (by simp), ih (fun x hx => h x (by simp [hx]))]

/-- A multipart message without parts, whose boundary is missing or is not found, is kept
as well if it is not a part of another one.  (Inside of another one it is not:
C122_claim_false.) -/
theorem C122_uncut_partial (P : Printer) (T : Types) (mg : Bool) (t : Txt) (hs : Headers) (p : Txt) (e : Option Txt)
    (sub : Txt) (ht : ∀ c ∈ t, c < 128 ∧ c ≠ 11 ∧ c ≠ 12 ∧ c ≠ 28 ∧ c ≠ 29 ∧ c ≠ 30)
    (h : readMail T t = .uncut hs p e) (hk : TypeKept T false hs) (hc : T.ctype hs false = txt "multipart/" ++ sub)
    (hb : ∀ b, T.boundary hs = some b → OneLine b) :
    ∃ s hs', P.writeTree T mg (readMail T t) = .ok s ∧ SameHeaders hs hs' ∧
      readMail T s = .uncut hs' (forceCrlf p) ((T.boundary hs).map fun _ => []) := by
  have hr : AsRead T (readMail T t) := by
    refine readTree_asRead T _ _ _ (readLines_lined t) ?_
    intro l hl c hc
    refine ht c ?_
    rw [← readLines_flatten t]
    exact List.mem_flatten.2 ⟨l, hl, hc⟩
  rw [h, AsRead] at hr
  obtain ⟨ts, hs', hl, h1, h2, h3, h4, h5, h6⟩ := headers_read P hr.1
  refine ⟨forceCrlf (ts.flatten ++ 10 :: p), hs', ?_, h2, ?_⟩
  · rw [h, Printer.writeTree, Printer.docOf, h1]
    simp only
    rw [asString.eq_def]
    simp only [generate, flatten, bodyOf.eq_def, hc, handlerOf_multi]
    rfl
  · rw [readMail, h4, readTree_headers T _ _ h5 h6, kind_kept hk h2, kind_multi hc]
    cases hbo : T.boundary hs with
    | none => simp only; rw [readLines_flatten]; rfl
    | some b =>
      have hcl := hr.2 b hbo
      have hu : Unsep b (readLines (forceCrlf p)) := by
        refine (readLines_lined _).unsep (hb b hbo) ?_
        rw [readLines_flatten, Clean, forceCrlf_eq, lines_join _ (lines_ne p) (lines_clean p)]
        exact hcl
      simp only [preamble_all hu, readLines_flatten]
      rfl

/-- Whatever was read has the same tokens after it was written and read again. -/
theorem C123_trip_partial (P : Printer) (U : Str) (E : Lib) (dec : Decoder) (bound : Option HVal → Option Txt)
    (mg : Bool) (order : List Nat) (t : Txt)
    (ht : ∀ c ∈ t, c < 128 ∧ c ≠ 11 ∧ c ≠ 12 ∧ c ≠ 28 ∧ c ≠ 29 ∧ c ≠ 30)
    (h : Usual (mailTypes U E bound) [] false (readMail (mailTypes U E bound) t))
    (hk : ∀ x ∈ nodes (readMail (mailTypes U E bound) t), ∀ e ∈ x.1, Keepable e)
    (hp : ∀ h p, (h, some p) ∈ nodes (readMail (mailTypes U E bound) t) →
      (∃ d sub, (mailTypes U E bound).ctype h d = txt "text/" ++ sub) → SettledText mg dec h p)
    (hok : (treeTokens U (mailTypes U E bound) E dec order (readMail (mailTypes U E bound) t)).stop = none) :
    ∃ s, P.writeTree (mailTypes U E bound) mg (readMail (mailTypes U E bound) t) = .ok s ∧
      treeTokens U (mailTypes U E bound) E dec order (readMail (mailTypes U E bound) s) =
        treeTokens U (mailTypes U E bound) E dec order (readMail (mailTypes U E bound) t) :=
  C123_same_tokens_partial P U E dec bound mg order _ (read_sound P _ mg t ht h) hk hp hok

/-- A message that is neither multipart/* nor message/* has the headers and the body that
`readMessage` finds: nothing of its text is lost. -/
theorem C124_plain (T : Types) (t : Txt) (main sub : Txt) (hm : 47 ∉ main)
    (hc : T.ctype (readMessage t).headers false = main ++ 47 :: sub) (hp : PrintsAsText main sub) :
    readMail T t = .text (readMessage t).headers (readMessage t).body := by
  have hk : T.kind (readMessage t).headers false = .text := kind_text hm hc hp
  have e : 2 * (readLines t).length + 2 = (2 * (readLines t).length + 1) + 1 := rfl
  rw [readMail, e, readTree]
  have h1 : (parseFields true [] (takeHeaders (readLines t)).1).headers = (readMessage t).headers := rfl
  simp only [h1, hk]
  simp only [readMessage, List.flatten_append]

/-! ### The hypotheses can be met -/

set_option maxRecDepth 8000 in
/-- The second line belongs to the text. -/
example : readMail plainTypes (txt "Subject: x\nFrom me\nto you") =
    .text [(txt "Subject", .str (txt "x"))] (txt "From me\nto you") := by
  have := C124_plain plainTypes (txt "Subject: x\nFrom me\nto you") (txt "text") (txt "plain") (by decide) (by rfl)
    (by unfold PrintsAsText; decide)
  exact this

/-- Parts in parts, lines that look like boundaries, and line ends of all kinds. -/
def nestText : Txt := txt "Content-Type: multipart/signed; boundary=a\n\npre --a\n--a\n\nhi\n--ab\n--a \nContent-Type: multipart/mixed; boundary=ab\r\n\r\n--ab\nX: y\n\nFrom ho\r--ab--\n\nbye\n--a--\nend"

def nestTree : Tree :=
  .cut [(txt "Content-Type", .str (txt "multipart/signed; boundary=a"))] (some (txt "pre --a"))
    [.text [] (txt "hi\n--ab"),
     .cut [(txt "Content-Type", .str (txt "multipart/mixed; boundary=ab"))] none
       [.text [(txt "X", .str (txt "y"))] (txt "From ho")] (some (txt "\nbye"))] (some (txt "end"))

set_option maxRecDepth 8000 in
theorem nest_read : readMail plainTypes nestText = nestTree := by
  rfl

set_option maxRecDepth 8000 in
example : ∃ s, laxPrinter.writeTree plainTypes true nestTree = .ok s ∧ SameTree true nestTree (readMail plainTypes s) := by
  have hd : ∀ n v : Txt, (∀ c ∈ v, 32 ≤ c ∧ c < 127) → (v.head? ≠ some 32) → n.length + 2 + v.length ≤ 78 →
      ∀ T d, TypeKept T d [(n, .str v)] := by
    intro n v h3 h4 h5 T d
    refine short_kept T d ?_
    intro x hx
    rw [List.mem_singleton] at hx
    subst hx
    refine ⟨v, rfl, ?_, ?_, h5⟩
    · intro c hc he
      have := h3 c hc
      unfold Ends at he
      omega
    · rintro c r rfl
      have := h3 c (by simp)
      simp at h4
      omega
  rw [← nest_read]
  refine C122_trip_partial _ _ _ _ (by decide) ?_
  rw [nest_read, nestTree]
  simp only [Usual, UsualAll]
  exact ⟨hd _ _ (by decide) (by decide) (by decide) _ _, ⟨txt "signed", rfl⟩, txt "a", rfl,
    by unfold OneLine; decide, by decide, by decide,
    ⟨short_kept _ _ (by intro x hx; cases hx), txt "text", txt "plain", by decide, rfl, by unfold PrintsAsText; decide⟩,
    ⟨hd _ _ (by decide) (by decide) (by decide) _ _, ⟨txt "mixed", rfl⟩, txt "ab", rfl,
      by unfold OneLine; decide, by decide, by decide,
      ⟨hd _ _ (by decide) (by decide) (by decide) _ _, txt "text", txt "plain", by decide, rfl,
        by unfold PrintsAsText; decide⟩, trivial⟩, trivial⟩

set_option maxRecDepth 8000 in
/-- Without quoting, the message of C123_claim_false keeps its tokens. -/
example : ∃ s, strict.writeTree mixedTypes false (readMail mixedTypes vowText) = .ok s ∧
    treeTokens asciiStr mixedTypes plainLib plainDecoder [0] (readMail mixedTypes s) =
      treeTokens asciiStr mixedTypes plainLib plainDecoder [0] (readMail mixedTypes vowText) := by
  have h3 : ∀ c ∈ txt "multipart/mixed; boundary=a", 32 ≤ c ∧ c < 127 := by decide
  have hv : Short (txt "Content-Type") (txt "multipart/mixed; boundary=a") := by
    refine ⟨?_, ?_, by decide⟩
    · intro c hc he
      have := h3 c hc
      unfold Ends at he
      omega
    · intro c r hr
      have : c = 109 := (List.cons.inj hr).1.symm
      omega
  have hh : ∀ x ∈ mixedHeaders, ∃ v, x.2 = .str v ∧ Short x.1 v := by
    intro x hx
    cases List.mem_singleton.1 hx
    exact ⟨_, rfl, hv⟩
  have hn : FieldName (txt "Content-Type") := ⟨by decide, by decide⟩
  have c1 : mixedTypes.ctype [] false = txt "text/plain" := by decide
  have c3 : (txt "multipart/mixed" == txt "multipart/digest") = false := by decide
  refine C123_trip_partial strict asciiStr plainLib plainDecoder plainBound false [0] vowText
    (by decide) ?_ ?_ ?_ ?_
  · rw [← mixedTypes, vowText_read, mixed]
    simp only [Usual, UsualAll, mixed_type, c3]
    exact ⟨short_kept _ _ hh, ⟨txt "mixed", rfl⟩, txt "a", by decide, by unfold OneLine; decide, by decide,
      by decide, ⟨short_kept _ _ (by intro x hx; cases hx), txt "text", txt "plain", by decide, c1,
        by unfold PrintsAsText; decide⟩, trivial⟩
  · rw [← mixedTypes, vowText_read]
    intro x hx e he
    simp only [mixed, nodes, nodesAll, List.append_nil, List.mem_cons, List.not_mem_nil, or_false] at hx
    rcases hx with rfl | rfl
    · cases List.mem_singleton.1 he
      exact ⟨⟨hn, .inr ⟨_, rfl, fun c hc => by have := h3 c hc; omega, short_continued hv⟩⟩, fun _ => ⟨_, rfl, hv⟩⟩
    · cases he
  · rw [← mixedTypes, vowText_read]
    intro h t hx _
    simp only [mixed, nodes, nodesAll, List.append_nil, List.mem_cons, List.not_mem_nil, or_false, Prod.mk.injEq,
      reduceCtorEq, and_false, false_or, Option.some.injEq] at hx
    obtain ⟨rfl, rfl⟩ := hx
    exact settled_plain (fun _ _ => rfl) (by unfold Ascii; decide)
      (fun i hi => absurd (List.mem_of_getElem? hi) (by decide)) (unbroken_of (by decide)) (fun h => by cases h)
  · rw [← mixedTypes, vowText_read]; decide

/-- A message that ends before its parts begin. -/
def cutShort : Txt := txt "Content-Type: multipart/mixed; boundary=a\n\nhello\r--a x\n--a--\nworld"

set_option maxRecDepth 8000 in
theorem cutShort_read : readMail plainTypes cutShort =
    .uncut [(txt "Content-Type", .str (txt "multipart/mixed; boundary=a"))] (txt "hello\r--a x\n") (some []) := by
  rfl

set_option maxRecDepth 8000 in
example : ∃ s hs', strict.writeTree plainTypes true (readMail plainTypes cutShort) = .ok s ∧
    SameHeaders [(txt "Content-Type", .str (txt "multipart/mixed; boundary=a"))] hs' ∧
    readMail plainTypes s = .uncut hs' (txt "hello\r\n--a x\r\n") (some []) := by
  have h3 : ∀ c ∈ txt "multipart/mixed; boundary=a", 32 ≤ c ∧ c < 127 := by decide
  refine C122_uncut_partial strict plainTypes true cutShort _ _ _ (txt "mixed") (by decide) cutShort_read ?_ rfl ?_
  · refine short_kept _ _ ?_
    intro x hx
    cases List.mem_singleton.1 hx
    refine ⟨_, rfl, ?_, ?_, by decide⟩
    · intro c hc he
      have := h3 c hc
      unfold Ends at he
      omega
    · intro c r hr
      have : c = 109 := (List.cons.inj hr).1.symm
      omega
  · intro b hb
    cases hb
    unfold OneLine
    decide

end Sb.Props
