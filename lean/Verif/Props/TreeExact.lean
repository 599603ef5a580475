import Verif.Props.TreeLocal

/-!
C125 for messages as they come from the network, with CR LF at the ends of lines: such a
message in the form in which messages are written is written character by character as it
was read.
-/

namespace Sb.Props

open Py Py.Text Sb.Mail Sb.Tokenize Sb.Strip

/-- Lines that end with CR LF. -/
def crLf (ls : List Txt) : Txt := ls.flatMap (· ++ [13, 10])

theorem forceCrlf_line {l : Txt} (h : OneLine l) (r : Txt) : forceCrlf (l ++ r) = l ++ forceCrlf r := by
  induction l with
  | nil => rfl
  | cons c l ih =>
    have hc := h c (by simp)
    have hi := ih (fun x hx => h x (by simp [hx]))
    rw [List.cons_append, List.cons_append, ← hi]
    rw [forceCrlf.eq_def]
    split
    · rename_i h1; cases h1
    · rename_i h1; exact absurd (List.cons.inj h1).1 hc.1
    · rename_i h1
      obtain ⟨rfl, rfl⟩ := List.cons.inj h1
      rw [if_neg (by simp [hc.1, hc.2])]

theorem forceCrlf_lf : ∀ (ls : List Txt), (∀ l ∈ ls, OneLine l) → forceCrlf (lf ls) = crLf ls
  | [], _ => rfl
  | l :: ls, h => by
    have e1 : lf (l :: ls) = l ++ 10 :: lf ls := by simp [lf]
    have e2 : crLf (l :: ls) = l ++ 13 :: 10 :: crLf ls := by simp [crLf]
    have e3 : forceCrlf (10 :: lf ls) = 13 :: 10 :: forceCrlf (lf ls) := by simp [forceCrlf]
    rw [e1, e2, forceCrlf_line (h l (by simp)), e3, forceCrlf_lf ls (fun x hx => h x (by simp [hx]))]

/-- **C125.** A message in the form in which messages are written, with CR LF at the ends
of its lines: what is written is its lines with CR LF, quoted with `mangle_from_`. -/
theorem C125_crlf (P : Printer) (T : Types) (ht : T.ctype [] false = txt "text/plain") (mg : Bool) (ls : List Txt)
    (ha : Ascii (lf ls)) (h : NeatMail T P.wide false ls)
    (hT : ∀ x ∈ nodes (readMail T (lf ls)), EndsIgnoredAt T x.1) :
    P.writeTree T mg (readMail T (crLf ls)) = .ok (crLf (ls.map (quoted mg))) := by
  have h0 : ∀ l ∈ ls, OneLine l := (passes mg h).lines
  have hq : ∀ l ∈ ls.map (quoted mg), OneLine l := by
    intro l hl c hc
    obtain ⟨y, hy, rfl⟩ := List.mem_map.1 hl
    rcases quoted_mem hc with rfl | hc
    · decide
    · exact h0 y hy c hc
  have hfree : 13 ∉ lf ls := by
    intro hm
    obtain ⟨l, hl', hm⟩ := List.mem_flatMap.1 hm
    rcases List.mem_append.1 hm with hm | hm
    · exact (h0 l hl' 13 hm).1 rfl
    · simp at hm
  rw [← forceCrlf_lf ls h0, ← forceCrlf_lf _ hq, ← C125_lines P T ht mg ls h]
  exact C126_message_partial P T mg _ _ ha (fun i hi => absurd (List.mem_of_getElem? hi) hfree)
    (fun i hi => (C43_crlf_only _).1 i hi) (C43_same_lines _) hT (neat_tree ht mg h).1

/-- **C125.** Without lines that are quoted it is written character by character as it was
read, so that the signature of a signed part, which is made of its lines with CR LF, is
still good. -/
theorem C125_exact_partial (P : Printer) (T : Types) (ht : T.ctype [] false = txt "text/plain") (mg : Bool)
    (ls : List Txt) (ha : Ascii (lf ls)) (h : NeatMail T P.wide false ls)
    (hT : ∀ x ∈ nodes (readMail T (lf ls)), EndsIgnoredAt T x.1)
    (hq : mg = true → ∀ l ∈ ls, ¬ txt "From " <+: l) :
    P.writeTree T mg (readMail T (crLf ls)) = .ok (crLf ls) := by
  have : ls.map (quoted mg) = ls := by
    conv_rhs => rw [← List.map_id ls]
    refine List.map_congr_left (fun l hl => ?_)
    cases mg with
    | false => rfl
    | true => exact if_neg (hq rfl l hl)
  rw [C125_crlf P T ht mg ls ha h hT, this]

/-! ### The hypotheses can be met -/

set_option maxRecDepth 8000 in
example : laxPrinter.writeTree lineTypes false (readMail lineTypes (crLf againLines)) = .ok (crLf againLines) :=
  C125_exact_partial laxPrinter lineTypes rfl false againLines (by unfold Ascii; decide) again_neat
    (fun x _ => ⟨fun _ d h => lineTypes_ends.ctype _ _ d h, fun _ h => lineTypes_ends.boundary _ _ h,
      fun b h => lineTypes_ends.line _ b h⟩) (by simp)

/-- With `mangle_from_` lines that begin with `From ` are quoted, so the text is another. -/
example : crLf (againLines.map (quoted true)) ≠ crLf againLines := by decide

end Sb.Props
