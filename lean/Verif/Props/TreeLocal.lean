import Verif.Props.TreeAgain
import Verif.Props.TreeTokens

/-
C126 for types that depend on ends of lines in other messages; C128: the tokens of messages
that differ in ends of lines.
-/

set_option linter.unusedSectionVars false

namespace Sb.Props
open Py Py.Text Sb.Mail Sb.Tokenize Sb.Strip

/-! ### What the claim is about -/

/-- The type and the boundary of these headers would be the same with other ends of lines
in values, and there are no ends of lines in the boundary. -/
structure EndsIgnoredAt (T : Types) (hs : Headers) : Prop where
  ctype : ∀ hs' d, SameButEnds hs hs' → T.ctype hs' d = T.ctype hs d
  boundary : ∀ hs', SameButEnds hs hs' → T.boundary hs' = T.boundary hs
  line : ∀ b, T.boundary hs = some b → OneLine b

/-! ### Two functions for types that agree on the headers of a message -/

def AgreeAt (T T' : Types) (hs : Headers) : Prop :=
  (∀ d, T'.ctype hs d = T.ctype hs d) ∧ T'.boundary hs = T.boundary hs

theorem kind_agree {T T' : Types} {hs : Headers} (h : AgreeAt T T' hs) (d : Bool) : T'.kind hs d = T.kind hs d := by
  unfold Types.kind
  rw [h.1 d, h.2]

theorem nodes_trim : ∀ m : Tree, (nodes (trimLast m)).map Prod.fst = (nodes m).map Prod.fst
  | .text _ _ => by simp [trimLast, nodes]
  | .inner _ m => by simp [trimLast, nodes, nodes_trim m]
  | .uncut _ _ _ => by simp [trimLast, nodes]
  | .cut _ _ _ _ => by simp [trimLast, nodes]

theorem nodesAll_mem {ms : List Tree} {m : Tree} (hm : m ∈ ms) {x : Headers × Option Txt} (hx : x ∈ nodes m) :
    x ∈ nodesAll ms := by
  induction ms with
  | nil => cases hm
  | cons y ys ih =>
    rw [nodesAll, List.mem_append]
    rcases List.mem_cons.1 hm with rfl | hm
    · exact .inl hx
    · exact .inr (ih hm)

theorem readTree_agree {T T' : Types} : ∀ n d ls, (∀ x ∈ nodes (readTree T n d ls), AgreeAt T T' x.1) →
    readTree T' n d ls = readTree T n d ls := by
  intro n
  induction n with
  | zero => intro d ls _; rfl
  | succ n ih =>
    intro d ls
    rw [readTree, readTree]
    generalize (parseFields true [] (takeHeaders ls).1).headers = hs
    generalize (parseFields true [] (takeHeaders ls).1).back ++ (takeHeaders ls).2 = rest
    intro h
    have hroot : AgreeAt T T' hs := by
      cases hk : T.kind hs d with
      | text => rw [hk] at h; exact h (hs, some _) (by simp [nodes]; rfl)
      | message => rw [hk] at h; exact h (hs, none) (by simp [nodes])
      | multipart o dg =>
        rw [hk] at h
        cases o with
        | none => exact h (hs, none) (by simp [nodes])
        | some b =>
          simp only at h
          rcases hp : preambleOf b rest with ⟨p, - | r⟩
          · rw [hp] at h; exact h (hs, none) (by simp [nodes])
          · rw [hp] at h; exact h (hs, none) (by simp [nodes])
    rw [kind_agree hroot]
    cases hk : T.kind hs d with
    | text => rfl
    | message =>
      rw [hk] at h
      simp only at h ⊢
      rw [ih false rest (fun x hx => h x (by simp [nodes, hx]))]
    | multipart o dg =>
      rw [hk] at h
      cases o with
      | none => rfl
      | some b =>
        simp only at h ⊢
        rcases hp : preambleOf b rest with ⟨p, - | r⟩
        · rfl
        · rw [hp] at h
          simp only at h ⊢
          congr 1
          refine List.map_congr_left fun s hs' => ?_
          rw [ih dg s]
          intro x hx
          have hx' : x.1 ∈ (nodes (trimLast (readTree T n dg s))).map Prod.fst := by
            rw [nodes_trim]; exact List.mem_map.2 ⟨x, hx, rfl⟩
          obtain ⟨y, hy, e⟩ := List.mem_map.1 hx'
          rw [← e]
          refine h y ?_
          rw [nodes]
          exact List.mem_cons.2 (.inr (nodesAll_mem (List.mem_map.2 ⟨s, hs', rfl⟩) hy))

mutual
theorem docOf_agree {T T' : Types} : ∀ (m : Tree) (d : Bool) (P : Printer), (∀ x ∈ nodes m, AgreeAt T T' x.1) →
    P.docOf T' d m = P.docOf T d m
  | .text hs t, d, P, h => by
    have := h (hs, some t) (by simp [nodes])
    rw [Printer.docOf, Printer.docOf, this.1]
  | .inner hs m, d, P, h => by
    have h0 := h (hs, none) (by simp [nodes])
    rw [Printer.docOf, Printer.docOf, h0.1, docOf_agree m false P (fun x hx => h x (by simp [nodes, hx]))]
  | .uncut hs t e, d, P, h => by
    have h0 := h (hs, none) (by simp [nodes])
    rw [Printer.docOf, Printer.docOf, h0.1, h0.2]
  | .cut hs p ms e, d, P, h => by
    have h0 := h (hs, none) (by simp [nodes])
    rw [Printer.docOf, Printer.docOf, h0.1, h0.2, docsOf_agree ms _ _ (fun x hx => h x (by simp [nodes, hx]))]
theorem docsOf_agree {T T' : Types} : ∀ (ms : List Tree) (d : Bool) (P : Printer), (∀ x ∈ nodesAll ms, AgreeAt T T' x.1) →
    P.docsOf T' d ms = P.docsOf T d ms
  | [], d, P, _ => by rw [Printer.docsOf, Printer.docsOf]
  | m :: ms, d, P, h => by
    rw [Printer.docsOf, Printer.docsOf, docOf_agree m d P (fun x hx => h x (by simp [nodesAll, hx])),
      docsOf_agree ms d P (fun x hx => h x (by simp [nodesAll, hx]))]
end

mutual
theorem noStatus_agree {T T' : Types} : ∀ (m : Tree) (d : Bool), (∀ x ∈ nodes m, AgreeAt T T' x.1) →
    (NoStatus T' d m ↔ NoStatus T d m)
  | .text hs t, d, h => by rw [NoStatus, NoStatus]
  | .inner hs m, d, h => by
    have h0 := h (hs, none) (by simp [nodes])
    rw [NoStatus, NoStatus, h0.1, noStatus_agree m false (fun x hx => h x (by simp [nodes, hx]))]
  | .uncut hs t e, d, h => by rw [NoStatus, NoStatus]
  | .cut hs p ms e, d, h => by
    have h0 := h (hs, none) (by simp [nodes])
    rw [NoStatus, NoStatus, h0.1, noStatuses_agree ms _ (fun x hx => h x (by simp [nodes, hx]))]
theorem noStatuses_agree {T T' : Types} : ∀ (ms : List Tree) (d : Bool), (∀ x ∈ nodesAll ms, AgreeAt T T' x.1) →
    (NoStatuses T' d ms ↔ NoStatuses T d ms)
  | [], d, _ => by rw [NoStatuses, NoStatuses]
  | m :: ms, d, h => by
    rw [NoStatuses, NoStatuses, noStatus_agree m d (fun x hx => h x (by simp [nodesAll, hx])),
      noStatuses_agree ms d (fun x hx => h x (by simp [nodesAll, hx]))]
end

/-! ### Types without ends of lines -/

/-- The value with LF as the end of every line. -/
def lfValue : Stored → Stored
  | .str v => .str (joinLf (lines v))
  | s => s

def lfHeads (hs : Headers) : Headers := hs.map fun x => (x.1, lfValue x.2)

open Classical in
/-- The types of the headers with LF as ends of lines. -/
noncomputable def lfTypes (T : Types) : Types where
  ctype hs d := T.ctype (lfHeads hs) d
  boundary hs := (T.boundary (lfHeads hs)).filter fun b => decide (OneLine b)

theorem lines_joinLf : ∀ (ls : List Txt), ls ≠ [] → (∀ l ∈ ls, OneLine l) → lines (joinLf ls) = ls
  | [], h, _ => absurd rfl h
  | [a], _, h => by
    have := lines_append (h a (by simp)) [] [] [] (by simp [lines])
    simpa [joinLf] using this
  | a :: b :: r, _, h => by
    rw [joinLf, lines_oneLine (h a (by simp)), lines_joinLf (b :: r) (by simp) (fun l hl => h l (by simp [hl]))]

theorem lfHeads_same (hs : Headers) : SameButEnds hs (lfHeads hs) := by
  unfold SameButEnds lfHeads
  induction hs with
  | nil => exact .nil
  | cons x hs ih =>
    refine .cons ⟨rfl, ?_⟩ ih
    obtain ⟨n, s⟩ := x
    cases s with
    | str v => exact .inr ⟨v, _, rfl, rfl, lines_joinLf _ (lines_ne v) (lines_clean v)⟩
    | _ => exact .inl rfl

theorem lfHeads_eq {hs hs' : Headers} (h : SameButEnds hs hs') : lfHeads hs' = lfHeads hs := by
  unfold lfHeads
  induction h with
  | nil => rfl
  | @cons x y hs hs' h _ ih =>
    rw [List.map_cons, List.map_cons, ih, h.1]
    rcases h.2 with e | ⟨v, v', e1, e2, e3⟩
    · rw [e]
    · rw [e1, e2, lfValue, lfValue, e3]

theorem lfTypes_ends (T : Types) : EndsIgnored (lfTypes T) where
  ctype hs hs' d h := by simp only [lfTypes, lfHeads_eq h]
  boundary hs hs' h := by simp only [lfTypes, lfHeads_eq h]
  line hs b h := by
    simp only [lfTypes, Option.filter_eq_some_iff] at h
    simpa using h.2

theorem AgreeAt.symm {T T' : Types} {hs : Headers} (h : AgreeAt T T' hs) : AgreeAt T' T hs :=
  ⟨fun d => (h.1 d).symm, h.2.symm⟩

theorem sameButEnds_refl (hs : Headers) : SameButEnds hs hs := by
  unfold SameButEnds
  induction hs with
  | nil => exact .nil
  | cons x hs ih => exact .cons ⟨rfl, .inl rfl⟩ ih

theorem SameButEnds.symm {a b : Headers} (h : SameButEnds a b) : SameButEnds b a := by
  unfold SameButEnds at h ⊢
  induction h with
  | nil => exact .nil
  | cons h _ ih =>
    refine .cons ⟨h.1.symm, ?_⟩ ih
    rcases h.2 with e | ⟨v, v', e1, e2, e3⟩
    · exact .inl e.symm
    · exact .inr ⟨v', v, e2, e1, e3.symm⟩

theorem SameButEnds.trans {a b : Headers} (h : SameButEnds a b) : ∀ {c : Headers}, SameButEnds b c → SameButEnds a c := by
  unfold SameButEnds at h ⊢
  induction h with
  | nil => intro c h; exact h
  | @cons x y a b h _ ih =>
    rintro (_ | ⟨z, c⟩) h'
    · cases h'
    · obtain ⟨k, ks⟩ := List.forall₂_cons.1 h'
      refine .cons ⟨k.1.trans h.1, ?_⟩ (ih ks)
      rcases h.2 with e | ⟨v, v', e1, e2, e3⟩
      · rw [← e]; exact k.2
      · rcases k.2 with e | ⟨w, w', f1, f2, f3⟩
        · exact .inr ⟨v, v', e1, e.trans e2, e3⟩
        · rw [e2] at f1
          cases f1
          exact .inr ⟨v, w', e1, f2, f3.trans e3⟩

theorem lf_agree {T : Types} {hs hs' : Headers} (h : EndsIgnoredAt T hs) (h' : SameButEnds hs hs') :
    AgreeAt (lfTypes T) T hs' := by
  have e := h'.trans (lfHeads_same hs')
  refine ⟨fun d => ?_, ?_⟩
  · show T.ctype hs' d = T.ctype (lfHeads hs') d
    rw [h.ctype _ d h', h.ctype _ d e]
  · show T.boundary hs' = (T.boundary (lfHeads hs')).filter _
    rw [h.boundary _ h', h.boundary _ e]
    cases hb : T.boundary hs with
    | none => rfl
    | some b => rw [Option.filter_some, if_pos (by simpa using h.line b hb)]

/-! ### C126 -/

mutual
theorem slim_nodes {T : Types} : ∀ (m m' : Tree) (d : Bool), Slim T d m m' →
    List.Forall₂ (fun x y => SameButEnds x.1 y.1) (nodes m) (nodes m')
  | .text hs t, _, d, .text h1 h2 => by rw [nodes, nodes]; exact .cons (slim_same h1) .nil
  | .inner hs m, _, d, .inner h1 h2 h3 => by rw [nodes, nodes]; exact .cons (slim_same h1) (slim_nodes m _ _ h3)
  | .uncut hs t e, _, d, .uncut h1 _ h2 h3 => by rw [nodes, nodes]; exact .cons (slim_same h1) .nil
  | .cut hs p ms e, _, d, .cut h1 h0 h2 h3 h4 => by rw [nodes, nodes]; exact .cons (slim_same h1) (slims_nodes ms _ _ h4)
theorem slims_nodes {T : Types} : ∀ (ms ms' : List Tree) (d : Bool), Slims T d ms ms' →
    List.Forall₂ (fun x y => SameButEnds x.1 y.1) (nodesAll ms) (nodesAll ms')
  | [], _, d, .nil => by rw [nodesAll]; exact .nil
  | m :: ms, _, d, .cons h1 h2 => by
    rw [nodesAll, nodesAll]
    exact forall₂_append (slim_nodes m _ _ h1) (slims_nodes ms _ _ h2)
end

theorem noCr_lines {t t' : Txt} (h : NoLoneCr t) (h' : NoLoneCr t') (hl : lines t' = lines t) : noCr t' = noCr t := by
  have : ∀ u : Txt, Paired u → noCr u = noCr (forceCrlf u) := by
    intro u hu
    induction u, hu using paired_induction with
    | h0 _ => rfl
    | h1 r _ _ ih => rw [forceCrlf, noCr_crlf, noCr_crlf, ih]
    | h2 c r hc _ _ ih =>
      rw [crlf_cons (by rintro s h; exact hc (List.cons.inj h).1), noCr_cons hc, ih]
      by_cases h10 : c = 10
      · subst h10; rw [if_pos (.inr rfl), noCr_crlf]
      · rw [if_neg (by simp [hc, h10]), noCr_cons hc]
  rw [this t' (paired_of h'), this t (paired_of h), forceCrlf_eq, forceCrlf_eq, hl]

theorem noCr_ascii {t t' : Txt} (ha : Ascii t) (e : noCr t' = noCr t) : Ascii t' := by
  intro c hc
  by_cases h13 : c = 13
  · omega
  · have : c ∈ noCr t' := List.mem_filter.2 ⟨hc, by simp [h13]⟩
    rw [e] at this
    exact ha c (List.mem_of_mem_filter this)

theorem partner_left {α β : Type} {R : α → β → Prop} {a : List α} {b : List β} (h : List.Forall₂ R a b) :
    ∀ y ∈ b, ∃ x ∈ a, R x y := by
  induction h with
  | nil => intro y hy; cases hy
  | @cons x y a b h _ ih =>
    intro z hz
    rcases List.mem_cons.1 hz with rfl | hz
    · exact ⟨x, by simp, h⟩
    · obtain ⟨w, h1, h2⟩ := ih z hz
      exact ⟨w, by simp [h1], h2⟩

theorem partner_right {α β : Type} {R : α → β → Prop} {a : List α} {b : List β} (h : List.Forall₂ R a b) :
    ∀ x ∈ a, ∃ y ∈ b, R x y := by
  induction h with
  | nil => intro y hy; cases hy
  | @cons x y a b h _ ih =>
    intro z hz
    rcases List.mem_cons.1 hz with rfl | hz
    · exact ⟨y, by simp, h⟩
    · obtain ⟨w, h1, h2⟩ := ih z hz
      exact ⟨w, by simp [h1], h2⟩

/-- Both texts are read as if the ends of lines in values were ignored everywhere. -/
theorem read_local {T : Types} {t t' : Txt} (ha : Ascii t) (h : NoLoneCr t) (h' : NoLoneCr t') (hl : lines t' = lines t)
    (hT : ∀ x ∈ nodes (readMail T t), EndsIgnoredAt T x.1) :
    readMail (lfTypes T) t = readMail T t ∧ readMail (lfTypes T) t' = readMail T t' ∧
    (∀ x ∈ nodes (readMail T t), AgreeAt (lfTypes T) T x.1) ∧ (∀ x ∈ nodes (readMail T t'), AgreeAt (lfTypes T) T x.1) := by
  have hA : ∀ x ∈ nodes (readMail T t), AgreeAt (lfTypes T) T x.1 :=
    fun x hx => lf_agree (hT x hx) (sameButEnds_refl _)
  have e1 : readMail (lfTypes T) t = readMail T t := readTree_agree _ _ _ (fun x hx => (hA x hx).symm)
  have e := noCr_lines h h' hl
  have s1 := slim_nodes _ _ _ (read_noCr (lfTypes_ends T) ha (paired_of h))
  have s2 := slim_nodes _ _ _ (read_noCr (lfTypes_ends T) (noCr_ascii ha e) (paired_of h'))
  rw [e1] at s1
  rw [e] at s2
  have hA' : ∀ x ∈ nodes (readMail (lfTypes T) t'), AgreeAt (lfTypes T) T x.1 := by
    intro x hx
    obtain ⟨y, hy, k1⟩ := partner_right s2 x hx
    obtain ⟨z, hz, k2⟩ := partner_left s1 y hy
    exact lf_agree (hT z hz) (k2.trans k1.symm)
  have e2 : readMail T t' = readMail (lfTypes T) t' := readTree_agree _ _ _ hA'
  exact ⟨e1, e2.symm, hA, by rw [e2]; exact hA'⟩

/-- **C126**, if the types and boundaries of this message do not depend on ends of lines;
those of other messages may. -/
theorem C126_message_partial (P : Printer) (T : Types) (mg : Bool) (t t' : Txt) (ha : Ascii t)
    (h : NoLoneCr t) (h' : NoLoneCr t') (hl : lines t' = lines t)
    (hT : ∀ x ∈ nodes (readMail T t), EndsIgnoredAt T x.1)
    (hs : NoStatus T false (readMail T t)) :
    P.writeTree T mg (readMail T t') = P.writeTree T mg (readMail T t) := by
  obtain ⟨e1, e2, a1, a2⟩ := read_local ha h h' hl hT
  have := C126_line_ends_partial P (lfTypes T) (lfTypes_ends T) mg t t' ha h h' hl (by
    rw [e1, ← noStatus_agree _ _ a1]; exact hs)
  rw [e1, e2] at this
  unfold Printer.writeTree at this ⊢
  rw [docOf_agree _ _ _ a1, docOf_agree _ _ _ a2]
  exact this

/-- **C127**, if the types and boundaries of this message, as it is quoted, do not depend
on ends of lines. -/
theorem C127_message_partial (P : Printer) (T : Types) (ht : T.ctype [] false = txt "text/plain")
    (mg : Bool) (ls : List Txt) (ha : Ascii (lf ls)) (h : NeatMail T P.wide false ls)
    (hT : ∀ x ∈ nodes (readMail T (lf (ls.map (quoted mg)))), EndsIgnoredAt T x.1) :
    ∃ s, P.writeTree T mg (readMail T (lf ls)) = .ok s ∧ P.writeTree T mg (readMail T s) = .ok s := by
  refine ⟨_, C125_lines P T ht mg ls h, ?_⟩
  have h' := neat_again mg h
  have h2 := C125_lines P T ht mg _ h'
  have e : (ls.map (quoted mg)).map (quoted mg) = ls.map (quoted mg) := by
    rw [List.map_map]
    exact List.map_congr_left (fun l _ => quoted_twice mg l)
  rw [e] at h2
  rw [← h2]
  have hl := (passes mg h').lines
  have hfree : 13 ∉ lf (ls.map (quoted mg)) := by
    intro hm
    obtain ⟨l, hl', hm⟩ := List.mem_flatMap.1 hm
    rcases List.mem_append.1 hm with hm | hm
    · exact (hl l hl' 13 hm).1 rfl
    · simp at hm
  have ha' : Ascii (lf (ls.map (quoted mg))) := by
    intro c hc
    obtain ⟨l, hl', hm⟩ := List.mem_flatMap.1 hc
    obtain ⟨y, hy, rfl⟩ := List.mem_map.1 hl'
    rcases List.mem_append.1 hm with hm | hm
    · rcases quoted_mem hm with rfl | hm
      · decide
      · exact ha c (List.mem_flatMap.2 ⟨y, hy, by simp [hm]⟩)
    · rw [List.mem_singleton.1 hm]; decide
  refine C126_message_partial P T mg _ _ ha' (fun i hi => absurd (List.mem_of_getElem? hi) hfree) ?_ (C43_same_lines _) hT
    (neat_tree ht mg h').1
  intro i hi
  exact ((C43_crlf_only _).1 i hi)

/-! ### C128: tokens -/

/-- What the tokenizer asks of the headers of a part would be the same with other ends of
lines in values. -/
structure PartIgnores (U : Str) (E : Lib) (dec : Decoder) (bound : Option HVal → Option Txt) (hs : Headers) : Prop
    extends EndsIgnoredAt (mailTypes U E bound) hs where
  view : ∀ hs', SameButEnds hs hs' →
    E.view (getOne hs' (txt "content-type")) (getOne hs' (txt "content-disposition")) =
      E.view (getOne hs (txt "content-type")) (getOne hs (txt "content-disposition"))
  decoder : ∀ hs', SameButEnds hs hs' →
    dec (getOne hs' (txt "content-transfer-encoding")) (getOne hs' (txt "content-type")) =
      dec (getOne hs (txt "content-transfer-encoding")) (getOne hs (txt "content-type"))

/-- With other ends of lines, the text is decoded to the same, or to a text with other
ends of lines; no "<script" is broken over two lines. -/
def TextIgnores (dec : Decoder) (h : Headers) (t : Txt) : Prop :=
  let d := dec (getOne h (txt "content-transfer-encoding")) (getOne h (txt "content-type"))
  ∀ t', MoreCr t t' → d t' = d t ∨ ∃ b b', d t = .bytes b ∧ d t' = .bytes b' ∧ MoreCr b b' ∧ Unbroken b

/-- The headers of the message itself of which the values are read. -/
def rootNames : List Txt :=
  [txt "subject", txt "x-mailer", txt "message-id", txt "from", txt "to", txt "cc", txt "sender", txt "reply-to"]

theorem root_tokens (U : Str) (E : Lib) {h h' : Headers} (hn : h'.map Prod.fst = h.map Prod.fst)
    (hs : ∀ n ∈ rootNames, h'.filter (fun e => sameName e.1 n) = h.filter (fun e => sameName e.1 n)) (v : List PartView) :
    tokenizeHeaders U false false v (headerView E h') = tokenizeHeaders U false false v (headerView E h) := by
  let U' : StrMore := { U with digit := fun _ => false, ilog2 := fun _ => 0 }
  have e : ∀ x, tokenizeHeaders U false false v (headerView E x) =
      (Gen.each (crackContent U) v).andThen (tokenizeHeadersRest U' .default (headerView E x) (moreView E x)) :=
    fun _ => rfl
  have one : ∀ n ∈ rootNames, getOne h' n = getOne h n := fun n hn => by
    rw [getOne_head, getOne_head, hs n hn]
  have all : ∀ n ∈ rootNames, getAll h' n = getAll h n := fun n hn => by
    unfold getAll; rw [hs n hn]
  have hsub : getSubject h' = getSubject h := by
    unfold getSubject; rw [one _ (by decide)]
  have h2 : subjectTokens U (headerView E h') = subjectTokens U (headerView E h) := by
    unfold subjectTokens subjectChunks
    simp only [headerView, hsub]
  have hadd : ∀ f ∈ addressHeaders, f ∈ rootNames := by decide
  have h3 : addressHeaders.flatMap (fieldTokens U (headerView E h')) =
      addressHeaders.flatMap (fieldTokens U (headerView E h)) := by
    rw [List.flatMap, List.flatMap]
    congr 1
    refine List.map_congr_left fun f hf => ?_
    unfold fieldTokens
    simp only [headerView, all f (hadd f hf)]
  have hto := all (txt "to") (by decide)
  have hcc := all (txt "cc") (by decide)
  have hma := one (txt "x-mailer") (by decide)
  have hid := one (txt "message-id") (by decide)
  have hf : front U' .default (headerView E h') (moreView E h') = front U' .default (headerView E h) (moreView E h) := by
    unfold front
    rw [h2, h3]
    simp only [headerView, moreView, hto, hcc, hma, hid]
    rfl
  rw [e, e, rest_front, rest_front, hf]
  show _ = (Gen.each (crackContent U) v).andThen ((front U' .default (headerView E h) (moreView E h)).andThen
    (.yield (headerTokens U'.lower _ _ (h.map Prod.fst))))
  rw [← hn]
  rfl

theorem slim_filter {hs : Headers} (ho : HeadsOk hs) {n : Txt}
    (h : ∀ e ∈ slimHeads hs, sameName e.1 n = true → ∀ v, e.2 = .str v → OneLine v) :
    hs.filter (fun e => sameName e.1 n) = (slimHeads hs).filter (fun e => sameName e.1 n) := by
  induction hs with
  | nil => rfl
  | cons x hs ih =>
    have ih := ih (fun y hy => ho y (by simp [hy])) (fun e he => h e (by
      unfold slimHeads at he ⊢
      rw [List.map_cons]
      exact List.mem_cons.2 (.inr he)))
    obtain ⟨-, v, hv, -, hp⟩ := ho x (by simp)
    obtain ⟨n', s⟩ := x
    cases hv
    have e : slimHeads ((n', Stored.str v) :: hs) = (n', .str (noCr v)) :: slimHeads hs := rfl
    rw [e] at h ⊢
    by_cases hn : sameName n' n = true
    · have h1 := h _ (List.mem_cons_self ..) hn _ rfl
      have h2 : noCr v = v := by
        refine noCr_same ?_
        intro h13
        obtain ⟨a, r, e⟩ := List.append_of_mem h13
        obtain ⟨s, rfl⟩ := hp a r e
        refine (h1 10 ?_).2 rfl
        unfold noCr
        rw [e]
        simp
      rw [List.filter_cons_of_pos (by simpa using hn), List.filter_cons_of_pos (by simpa using hn), ih, h2]
    · rw [List.filter_cons_of_neg (by simpa using hn), List.filter_cons_of_neg (by simpa using hn), ih]

theorem moreCr_noCr {t : Txt} (h : Paired t) : MoreCr (noCr t) t := by
  induction t, h using paired_induction with
  | h0 _ => exact .nil
  | h1 r _ _ ih => rw [noCr_crlf]; exact .lf ih
  | h2 c r hc _ _ ih => rw [noCr_cons hc]; exact .char c ih

section
variable (U : Str) (E : Lib) (dec : Decoder) (bound : Option HVal → Option Txt)

theorem main_node (hs : Headers) (d : Bool) (t : Txt) (ms : Option (List Mime)) :
    Mime.mainType U (nodeOf E dec d hs t ms) = ((mailTypes U E bound).ctype hs d).takeWhile (· != 47) := by
  rw [Mime.mainType]
  congr 1
  exact node_type U E dec _ d hs _ _ _ _

theorem part_same {hs hs' : Headers} (h : PartIgnores U E dec bound hs) (h' : SameButEnds hs hs') (d : Bool) (t t' : Txt)
    (ms ms' : Option (List Mime)) :
    Mime.contentType U (nodeOf E dec d hs' t' ms') = Mime.contentType U (nodeOf E dec d hs t ms) ∧
    Mime.viewOf U (nodeOf E dec d hs' t' ms') = Mime.viewOf U (nodeOf E dec d hs t ms) := by
  have e : Mime.contentType U (nodeOf E dec d hs' t' ms') = Mime.contentType U (nodeOf E dec d hs t ms) := by
    have h1 := h.ctype hs' d h'
    have a : ∀ hs t ms, Mime.contentType U (nodeOf E dec d hs t ms) = (mailTypes U E bound).ctype hs d :=
      fun hs t ms => node_type U E dec _ d hs _ _ _ _
    rw [a, a, h1]
  refine ⟨e, ?_⟩
  have v : ∀ hs t ms, Mime.viewOf U (nodeOf E dec d hs t ms) =
      { E.view (getOne hs (txt "content-type")) (getOne hs (txt "content-disposition")) with
        contentType := Mime.contentType U (nodeOf E dec d hs t ms) } := fun _ _ _ => rfl
  rw [v, v, e, h.view hs' h']

mutual
theorem slimWalk : ∀ (m' m : Tree) (d : Bool), Slim (lfTypes (mailTypes U E bound)) d m' m →
    (∀ x ∈ nodes m', AgreeAt (lfTypes (mailTypes U E bound)) (mailTypes U E bound) x.1) →
    (∀ x ∈ nodes m, PartIgnores U E dec bound x.1) →
    (∀ h t, (h, some t) ∈ nodes m → (∃ d, ((mailTypes U E bound).ctype h d).takeWhile (· != 47) = txt "text") →
      TextIgnores dec h t) →
    List.Forall₂ (SamePart U) (Mime.walk (treeMime (mailTypes U E bound) E dec d m))
      (Mime.walk (treeMime (mailTypes U E bound) E dec d m'))
  | .text hs t, _, d, .text h1 h2, _, hp, ht => by
    have h0 := hp (slimHeads hs, some (noCr t)) (by simp [nodes])
    have hs' := (slim_same h1).symm
    obtain ⟨e1, e2⟩ := part_same U E dec bound h0 hs' d (noCr t) t none none
    rw [treeMime, treeMime]
    refine .cons ⟨e1, e2, ?_⟩ .nil
    intro hmain hstop
    have ht := ht (slimHeads hs) (noCr t) (by simp [nodes])
      ⟨d, (main_node U E dec bound _ d (noCr t) none).symm.trans hmain⟩ t (moreCr_noCr h2)
    show textPart (dec (getOne hs _) (getOne hs _) t) = textPart (dec _ _ (noCr t))
    rw [h0.decoder hs hs']
    rcases ht with hset | ⟨b, b', k1, k2, k3, k4⟩
    · rw [hset]
    · have hstop' : (textPart (dec (getOne (slimHeads hs) (txt "content-transfer-encoding"))
          (getOne (slimHeads hs) (txt "content-type")) (noCr t))).stop = none := hstop
      rw [k1] at hstop' ⊢
      rw [k2]
      exact C118_line_ends b b' k3 k4 hstop'
  | .inner hs m, _, d, .inner (m' := m0) h1 h2 h3, ha, hp, ht => by
    have h0 := hp (slimHeads hs, none) (by simp [nodes])
    have hs' := (slim_same h1).symm
    rw [treeMime, treeMime]
    obtain ⟨e1, e2⟩ := part_same U E dec bound h0 hs' d [] [] (some [treeMime (mailTypes U E bound) E dec false m0])
      (some [treeMime (mailTypes U E bound) E dec false m])
    unfold nodeOf at e1 e2 ⊢
    rw [Mime.walk, Mime.walk, Mime.walkAll, Mime.walkAll, Mime.walkAll, Mime.walkAll, List.append_nil, List.append_nil]
    refine .cons ⟨e1, e2, fun _ _ => rfl⟩ ?_
    exact slimWalk m m0 false h3 (fun x hx => ha x (by simp [nodes, hx])) (fun x hx => hp x (by simp [nodes, hx]))
      (fun h t hx => ht h t (by simp [nodes, hx]))
  | .uncut hs t e, _, d, .uncut h1 hk h2 h3, ha, hp, ht => by
    have h0 := hp (slimHeads hs, none) (by simp [nodes])
    have hs' := (slim_same h1).symm
    obtain ⟨e1, e2⟩ := part_same U E dec bound h0 hs' d (noCr t) t none none
    rw [treeMime, treeMime]
    refine .cons ⟨e1, e2, ?_⟩ .nil
    intro hmain _
    exfalso
    obtain ⟨o, dg, hk⟩ := hk
    rw [← kind_agree (ha (hs, none) (by simp [nodes]))] at hk
    have hm : ((mailTypes U E bound).ctype hs d).takeWhile (· != 47) = txt "text" := by
      rw [h0.ctype hs d hs']; exact (main_node U E dec bound _ d (noCr t) none).symm.trans hmain
    unfold Types.kind at hk
    simp only [hm] at hk
    rw [if_neg (by decide), if_neg (by decide)] at hk
    cases hk
  | .cut hs p ms e, _, d, .cut (ms' := m0) h1 hk h2 h3 h4, ha, hp, ht => by
    have h0 := hp (slimHeads hs, none) (by simp [nodes])
    have hs' := (slim_same h1).symm
    rw [← (ha (hs, none) (by simp [nodes])).1] at h4
    rw [treeMime, treeMime, h0.ctype hs d hs']
    rw [h0.ctype hs d hs'] at h4
    obtain ⟨e1, e2⟩ := part_same U E dec bound h0 hs' d [] [] (some (treeMimes (mailTypes U E bound) E dec
        ((mailTypes U E bound).ctype (slimHeads hs) d == txt "multipart/digest") m0))
      (some (treeMimes (mailTypes U E bound) E dec
        ((mailTypes U E bound).ctype (slimHeads hs) d == txt "multipart/digest") ms))
    unfold nodeOf at e1 e2 ⊢
    rw [Mime.walk, Mime.walk]
    refine .cons ⟨e1, e2, fun _ _ => rfl⟩ ?_
    exact slimWalks ms m0 _ h4 (fun x hx => ha x (by simp [nodes, hx])) (fun x hx => hp x (by simp [nodes, hx]))
      (fun h t hx => ht h t (by simp [nodes, hx]))
theorem slimWalks : ∀ (ms' ms : List Tree) (d : Bool), Slims (lfTypes (mailTypes U E bound)) d ms' ms →
    (∀ x ∈ nodesAll ms', AgreeAt (lfTypes (mailTypes U E bound)) (mailTypes U E bound) x.1) →
    (∀ x ∈ nodesAll ms, PartIgnores U E dec bound x.1) →
    (∀ h t, (h, some t) ∈ nodesAll ms → (∃ d, ((mailTypes U E bound).ctype h d).takeWhile (· != 47) = txt "text") →
      TextIgnores dec h t) →
    List.Forall₂ (SamePart U) (Mime.walkAll (treeMimes (mailTypes U E bound) E dec d ms))
      (Mime.walkAll (treeMimes (mailTypes U E bound) E dec d ms'))
  | [], _, d, .nil, _, _, _ => by rw [treeMimes, Mime.walkAll]; exact .nil
  | m :: ms, _, d, .cons (m' := m0) (ms' := ms0) h1 h2, ha, hp, ht => by
    rw [treeMimes, treeMimes, Mime.walkAll, Mime.walkAll]
    exact forall₂_append
      (slimWalk m m0 d h1 (fun x hx => ha x (by simp [nodesAll, hx])) (fun x hx => hp x (by simp [nodesAll, hx]))
        (fun h t hx => ht h t (by simp [nodesAll, hx])))
      (slimWalks ms ms0 d h2 (fun x hx => ha x (by simp [nodesAll, hx])) (fun x hx => hp x (by simp [nodesAll, hx]))
        (fun h t hx => ht h t (by simp [nodesAll, hx])))
end
end

theorem slim_root {T : Types} {d : Bool} {m m' : Tree} (h : Slim T d m m') :
    HeadsOk (headersOf m) ∧ headersOf m' = slimHeads (headersOf m) := by
  cases h with
  | text h1 _ => exact ⟨h1, rfl⟩
  | inner h1 _ _ => exact ⟨h1, rfl⟩
  | uncut h1 _ _ _ => exact ⟨h1, rfl⟩
  | cut h1 _ _ _ _ => exact ⟨h1, rfl⟩

/-- **C128, where it holds.** A message of which the lines end with LF has the same tokens
if some or all of its lines end with CR LF, whatever its parts are.  Values that are read
are of one line, but for those of the headers for the content. -/
theorem C128_line_ends_partial (U : Str) (E : Lib) (dec : Decoder) (bound : Option HVal → Option Txt) (order : List Nat)
    (t t' : Txt) (ha : Ascii t) (h : 13 ∉ t) (h' : NoLoneCr t') (hl : lines t' = lines t)
    (hroot : ∀ e ∈ headersOf (readMail (mailTypes U E bound) t), ∀ n ∈ rootNames, sameName e.1 n = true →
      ∀ v, e.2 = .str v → OneLine v)
    (hp : ∀ x ∈ nodes (readMail (mailTypes U E bound) t), PartIgnores U E dec bound x.1)
    (ht : ∀ h u, (h, some u) ∈ nodes (readMail (mailTypes U E bound) t) →
      (∃ d, ((mailTypes U E bound).ctype h d).takeWhile (· != 47) = txt "text") → TextIgnores dec h u)
    (hok : (treeTokens U (mailTypes U E bound) E dec order (readMail (mailTypes U E bound) t)).stop = none) :
    treeTokens U (mailTypes U E bound) E dec order (readMail (mailTypes U E bound) t') =
      treeTokens U (mailTypes U E bound) E dec order (readMail (mailTypes U E bound) t) := by
  have hn : NoLoneCr t := fun i hi => absurd (List.mem_of_getElem? hi) h
  obtain ⟨e1, e2, a1, a2⟩ := read_local ha hn h' hl (fun x hx => (hp x hx).toEndsIgnoredAt)
  have e := noCr_lines hn h' hl
  have hslim := read_noCr (lfTypes_ends (mailTypes U E bound)) (noCr_ascii ha e) (paired_of h')
  rw [e, noCr_same h, e1, e2] at hslim
  have hw := slimWalk U E dec bound _ _ false hslim a2 hp ht
  obtain ⟨o1, o2⟩ := slim_root hslim
  have hv : (Mime.walk (treeMime (mailTypes U E bound) E dec false (readMail (mailTypes U E bound) t'))).map (Mime.viewOf U) =
      (Mime.walk (treeMime (mailTypes U E bound) E dec false (readMail (mailTypes U E bound) t))).map (Mime.viewOf U) := by
    generalize Mime.walk (treeMime (mailTypes U E bound) E dec false (readMail (mailTypes U E bound) t)) = a at hw
    generalize Mime.walk (treeMime (mailTypes U E bound) E dec false (readMail (mailTypes U E bound) t')) = b at hw
    induction hw with
    | nil => rfl
    | cons h _ ih => rw [List.map_cons, List.map_cons, ih, h.2.1]
  have hr : ∀ v, tokenizeHeaders U false false v (headerView E (headersOf (readMail (mailTypes U E bound) t'))) =
      tokenizeHeaders U false false v (headerView E (headersOf (readMail (mailTypes U E bound) t))) := by
    refine root_tokens U E ?_ ?_
    · rw [o2, slimHeads, List.map_map]; rfl
    · intro n hn'
      rw [o2] at hroot ⊢
      exact slim_filter o1 (fun e he hs v hv => hroot e he n hn' hs v hv)
  unfold treeTokens Mime.tokenizeMessage tokenize at hok ⊢
  simp only at hok ⊢
  have hstop := ((convert_stop _).1 hok).1
  rw [andThen_stop_none] at hstop
  have he := eachPart_same (forall₂_pick (parts_text hw) order) hstop.2
  rw [hv, hr]
  unfold tokenizeBody
  unfold Mime.textparts
  rw [he]

/-- The claim: the tokens of a message do not depend on whether its lines end with LF or
with CR LF. -/
def C128Claim : Prop :=
  ∀ (U : Str) (E : Lib) (dec : Decoder) (bound : Option HVal → Option Txt) (order : List Nat) (t t' : Txt),
    (∀ t, Ascii t → dec none none t = .bytes t) → Ascii t → 13 ∉ t → NoLoneCr t' → lines t' = lines t →
    (treeTokens U (mailTypes U E bound) E dec order (readMail (mailTypes U E bound) t)).stop = none →
    treeTokens U (mailTypes U E bound) E dec order (readMail (mailTypes U E bound) t') =
      treeTokens U (mailTypes U E bound) E dec order (readMail (mailTypes U E bound) t)

/-- A subject of two lines. -/
def twoLines : Txt := txt "Subject: hi\n there\n\nhello\n"
def twoLinesCr : Txt := txt "Subject: hi\r\n there\r\n\r\nhello\r\n"

set_option maxRecDepth 8000 in
theorem twoLines_read : readMail mixedTypes twoLines =
    .text [(txt "Subject", .str (txt "hi\n there"))] (txt "hello\n") := by
  rfl

set_option maxRecDepth 8000 in
theorem twoLinesCr_read : readMail mixedTypes twoLinesCr =
    .text [(txt "Subject", .str (txt "hi\r\n there"))] (txt "hello\r\n") := by
  rfl

theorem noLone {t : Txt} (h : ∀ j < t.length, t[j]? = some 13 → t[j + 1]? = some 10) : NoLoneCr t := by
  intro i hi
  refine h i ?_ hi
  by_contra hlt
  rw [List.getElem?_eq_none (by omega)] at hi
  cases hi

set_option maxRecDepth 8000 in
/-- **C128 is false**: the ends of lines in a subject are in a token. -/
theorem C128_claim_false : ¬ C128Claim := by
  intro h
  have h2 := h asciiStr plainLib plainDecoder plainBound [0] twoLines twoLinesCr (fun _ _ => rfl)
    (by unfold Ascii; decide) (by decide) (noLone (by decide)) (by decide)
    (by rw [← mixedTypes, twoLines_read]; decide)
  rw [← mixedTypes, twoLines_read, twoLinesCr_read] at h2
  have h3 : Tok.bytes (txt "subject: \n ") ∈ (treeTokens asciiStr mixedTypes plainLib plainDecoder [0]
    (.text [(txt "Subject", .str (txt "hi\r\n there"))] (txt "hello\r\n"))).toks := by decide
  rw [h2] at h3
  exact absurd h3 (by decide)

/-! ### The hypotheses can be met -/

theorem lines_single (v : Txt) : ∀ a, lines v = [a] → v = a := by
  induction v using crlf_induction with
  | h0 => intro a h; simp [lines] at h; exact h.symm
  | h1 r _ =>
    intro a h
    rw [lines_crlf] at h
    exact absurd (List.cons.inj h).2 (lines_ne r)
  | h2 c r hc ih =>
    intro a h
    rw [lines_cons hc] at h
    split at h
    · exact absurd (List.cons.inj h).2 (lines_ne r)
    · cases hr : lines r with
      | nil => exact absurd hr (lines_ne r)
      | cons l ls =>
        rw [hr] at h
        simp only [List.cons.injEq] at h
        obtain ⟨rfl, rfl⟩ := h
        rw [ih l hr]

theorem lines_two (v : Txt) : ∀ a b, lines v = [a, b] → ∃ e, (e = [10] ∨ e = [13] ∨ e = [13, 10]) ∧ v = a ++ e ++ b := by
  induction v using crlf_induction with
  | h0 => intro a b h; simp [lines] at h
  | h1 r _ =>
    intro a b h
    rw [lines_crlf] at h
    have hb := (List.cons.inj h).2
    obtain ⟨rfl, -⟩ := List.cons.inj h
    rw [lines_single r b hb]
    exact ⟨_, .inr (.inr rfl), rfl⟩
  | h2 c r hc ih =>
    intro a b h
    rw [lines_cons hc] at h
    split at h
    · rename_i h0
      have hb := (List.cons.inj h).2
      obtain ⟨rfl, -⟩ := List.cons.inj h
      rw [lines_single r b hb]
      rcases h0 with rfl | rfl
      · exact ⟨_, .inr (.inl rfl), rfl⟩
      · exact ⟨_, .inl rfl, rfl⟩
    · cases hr : lines r with
      | nil => exact absurd hr (lines_ne r)
      | cons l ls =>
        rw [hr] at h
        simp only [List.cons.injEq] at h
        obtain ⟨rfl, rfl⟩ := h
        obtain ⟨e, h1, h2⟩ := ih l b hr
        exact ⟨e, h1, by rw [h2]; simp⟩

/-- A message with a text as its part, and a Content-Type of two lines. -/
def folded : Txt := txt "Content-Type: multipart/mixed;\n boundary=a\nSubject: hi\n\n--a\n\nsee you\nthere\n--a--\n"
def foldedCr : Txt :=
  txt "Content-Type: multipart/mixed;\r\n boundary=a\r\nSubject: hi\r\n\n--a\r\n\nsee you\r\nthere\r\n--a--\n"

def foldedHeads (v : Txt) : Headers := [(txt "Content-Type", .str v), (txt "Subject", .str (txt "hi"))]

set_option maxRecDepth 8000 in
theorem folded_read : readMail mixedTypes folded =
    .cut (foldedHeads (txt "multipart/mixed;\n boundary=a")) none [.text [] (txt "see you\nthere")] (some []) := by
  rfl

theorem folded_ignores : PartIgnores asciiStr plainLib plainDecoder plainBound
    (foldedHeads (txt "multipart/mixed;\n boundary=a")) := by
  have key : ∀ hs', SameButEnds (foldedHeads (txt "multipart/mixed;\n boundary=a")) hs' →
      ∃ e, (e = [10] ∨ e = [13] ∨ e = [13, 10]) ∧ hs' = foldedHeads (txt "multipart/mixed;" ++ e ++ txt " boundary=a") := by
    rintro (_ | ⟨⟨n1, s1⟩, _ | ⟨⟨n2, s2⟩, _ | ⟨z, r⟩⟩⟩) h
    · cases h
    · cases h with | cons _ h => cases h
    · obtain ⟨⟨h1, h2⟩, h⟩ := List.forall₂_cons.1 h
      obtain ⟨⟨h3, h4⟩, -⟩ := List.forall₂_cons.1 h
      simp only at h1 h2 h3 h4
      have e2 : s2 = .str (txt "hi") := by
        rcases h4 with h4 | ⟨v, v', k1, k2, k3⟩
        · exact h4
        · cases k1
          rw [k2, lines_single v' (txt "hi") (k3.trans (by decide))]
      have e1 : ∃ v', s1 = .str v' ∧ lines v' = [txt "multipart/mixed;", txt " boundary=a"] := by
        rcases h2 with h2 | ⟨v, v', k1, k2, k3⟩
        · exact ⟨_, h2, by decide⟩
        · cases k1
          exact ⟨v', k2, k3.trans (by decide)⟩
      obtain ⟨v', e1, e3⟩ := e1
      obtain ⟨e, k1, k2⟩ := lines_two v' _ _ e3
      exact ⟨e, k1, by rw [h1, h3, e1, e2, k2]; rfl⟩
    · cases h with | cons _ h => cases h with | cons _ h => cases h
  refine ⟨⟨?_, ?_, ?_⟩, ?_, ?_⟩
  · intro hs' d h
    obtain ⟨e, rfl | rfl | rfl, rfl⟩ := key hs' h <;> cases d <;> decide
  · intro hs' h
    obtain ⟨e, rfl | rfl | rfl, rfl⟩ := key hs' h <;> decide
  · intro b hb
    have : (mailTypes asciiStr plainLib plainBound).boundary (foldedHeads (txt "multipart/mixed;\n boundary=a")) =
      some (txt "a") := by decide
    rw [this] at hb
    cases hb
    unfold OneLine; decide
  · intro hs' _; rfl
  · intro hs' _; rfl

theorem folded_all : ∀ x ∈ nodes (readMail mixedTypes folded), PartIgnores asciiStr plainLib plainDecoder plainBound x.1 := by
  rw [folded_read]
  intro x hx
  simp only [nodes, nodesAll, List.mem_cons, List.append_nil, List.not_mem_nil, or_false] at hx
  rcases hx with rfl | rfl
  · exact folded_ignores
  · have key : ∀ hs', SameButEnds [] hs' → hs' = [] := by
      rintro (_ | _) h
      · rfl
      · cases h
    refine ⟨⟨?_, ?_, ?_⟩, ?_, ?_⟩
    · intro hs' d h; rw [key hs' h]
    · intro hs' h; rw [key hs' h]
    · intro b hb; cases hb
    · intro hs' h; rw [key hs' h]
    · intro hs' h; rw [key hs' h]

set_option maxRecDepth 8000 in
/-- It is written alike with other ends of lines, though `mixedTypes` does depend on them
in other messages. -/
example : strict.writeTree mixedTypes true (readMail mixedTypes foldedCr) =
      strict.writeTree mixedTypes true (readMail mixedTypes folded) ∧ ¬ EndsIgnored mixedTypes := by
  constructor
  · exact C126_message_partial strict mixedTypes true folded foldedCr (by unfold Ascii; decide)
      (noLone (by decide)) (noLone (by decide)) (by decide) (fun x hx => (folded_all x hx).toEndsIgnoredAt)
      (by rw [folded_read]; simp [NoStatus, NoStatuses])
  · intro h
    exact (h.line [(txt "Content-Type", .str (txt "=\n"))] (txt "\n") (by decide) 10 (by decide)).2 rfl

set_option maxRecDepth 8000 in
/-- It has the same tokens with other ends of lines. -/
example : treeTokens asciiStr mixedTypes plainLib plainDecoder [0] (readMail mixedTypes foldedCr) =
    treeTokens asciiStr mixedTypes plainLib plainDecoder [0] (readMail mixedTypes folded) := by
  refine C128_line_ends_partial asciiStr plainLib plainDecoder plainBound [0] folded foldedCr
    (by unfold Ascii; decide) (by decide) (noLone (by decide)) (by decide) ?_ ?_ ?_ ?_
  · rw [← mixedTypes, folded_read]
    intro e he n hn hs v hv
    rcases List.mem_cons.1 he with rfl | he
    · exfalso
      have : ∀ n ∈ rootNames, sameName (txt "Content-Type") n ≠ true := by decide
      exact this n hn hs
    · cases List.mem_singleton.1 he
      cases hv
      unfold OneLine; decide
  · exact folded_all
  · rw [← mixedTypes, folded_read]
    intro h u hx _
    simp only [nodes, nodesAll, List.mem_cons, List.append_nil, List.not_mem_nil, or_false, Prod.mk.injEq,
      reduceCtorEq, and_false, false_or] at hx
    obtain ⟨rfl, hx⟩ := hx
    cases hx
    intro t' ht'
    exact .inr ⟨_, _, rfl, rfl, ht', unbroken_of (by decide)⟩
  · rw [← mixedTypes, folded_read]; decide

example : ∃ s, laxPrinter.writeTree lineTypes true (readMail lineTypes (lf againLines)) = .ok s ∧
    laxPrinter.writeTree lineTypes true (readMail lineTypes s) = .ok s :=
  C127_message_partial laxPrinter lineTypes rfl true againLines (by unfold Ascii; decide) again_neat
    (fun x _ => ⟨fun hs' d h => lineTypes_ends.ctype _ _ d h, fun hs' h => lineTypes_ends.boundary _ _ h,
      fun b h => lineTypes_ends.line _ b h⟩)

end Sb.Props
