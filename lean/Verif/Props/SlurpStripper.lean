import Verif.Model.SlurpStripper
import Verif.Props.Strippers

/-
Property C115: the URL to be followed.
-/

set_option linter.unusedSectionVars false
namespace Sb.Props
open Py Py.Re Py.Text Sb.Mail Sb.Strip Sb.Slurp

/-- What the comment promises: after a text that is an http URL, `slurp_wordstream` holds that
URL, without the punctuation at its end. -/
def C115Claim : Prop :=
  ∀ (host rest : List Nat) (noted : SlurpVar), host ≠ [] → (∀ c ∈ host, isUrlChar c = true ∧ c ∉ txt ".:;?!/)") →
    (∀ c ∈ rest, c ∈ txt ".:;?!/)") →
    (slurpAnalyze .plain (txt "http://" ++ host ++ rest) noted).2 = some (txt "http", host)

/-- helper -/
theorem slurpStripper_eq (S : Stripper) : slurpStripper S = S := by
  obtain ⟨a, b, f⟩ := S
  unfold slurpStripper slurpTokenize
  congr 1
  funext t m
  simp only
  cases f t m with
  | error e => rfl
  | ok toks => rfl

/-- **C115.** Whatever texts are analyzed, `slurp_wordstream` remains what it was: None, and no URL is
ever followed. -/
theorem C115_never_partial (k : UrlKind) (texts : List (List Nat)) (noted : SlurpVar) :
    slurpAll k texts noted = noted := by
  unfold slurpAll
  induction texts with
  | nil => rfl
  | cons t r ih => exact ih

/-- **C115.** The text that remains, the tokens and the exceptions are those of a
URLStripper, in all its variants. -/
theorem C115_same_result (t : List Nat) (noted : SlurpVar) :
    (slurpAnalyze .plain t noted).1 = analyze urls t ∧
    (slurpAnalyze .fancy t noted).1 = analyze fancyUrls t ∧
    ∀ o, (slurpAnalyze (.options o) t noted).1 = analyze (Tokenize.urlsWith o) t := by
  have h : ∀ k : UrlKind, (slurpAnalyze k t noted).1 = analyze k.stripper t := by
    intro k
    unfold slurpAnalyze
    rw [slurpStripper_eq]
  exact ⟨h .plain, h .fancy, fun o => h (.options o)⟩

/-- **C115 is false.** -/
theorem C115_claim_false : ¬ C115Claim := by
  intro h
  have := h (txt "spam") (txt ".") none (by decide) (by decide) (by decide)
  cases this

/-- A text with a URL. -/
example : (slurpAnalyze .plain (txt "see http://spam/.") none).1 = some (.ok (txt "see ",
    [.bytes (txt "proto:http"), .bytes (txt "url:spam"), .bytes (txt "url:"), .bytes (txt "url:")])) := by decide

end Sb.Props
