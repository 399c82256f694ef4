import Verif.Model.PanicText
import Verif.Spec.PanicText
import Verif.Proofs.Strconv

/-! # C51: what a PanicError tells about the panic -/

set_option autoImplicit false

namespace Verif
open Spec

theorem afterPrefix_append (p s : GoStr) : afterPrefix p (p ++ s) = some s := by simp [afterPrefix]

theorem atColon_append (t : GoStr) (ht : (58 : Byte) ∉ t) (s : GoStr) : atColon (t ++ (lit ": " ++ s)) = some (t, s) := by
  have e : ∀ t : GoStr, (58 : Byte) ∉ t → (t ++ (lit ": " ++ s)).dropWhile (· ≠ 58) = lit ": " ++ s ∧ (t ++ (lit ": " ++ s)).takeWhile (· ≠ 58) = t := by
    intro t
    induction t with
    | nil => exact fun _ => ⟨rfl, rfl⟩
    | cons c t ih =>
      intro h
      simp only [List.mem_cons, not_or] at h
      have hc : decide (c ≠ 58) = true := decide_eq_true fun e => h.1 e.symm
      obtain ⟨h1, h2⟩ := ih h.2
      exact ⟨by rw [List.cons_append, List.dropWhile_cons, if_pos hc]; exact h1, by rw [List.cons_append, List.takeWhile_cons, if_pos hc, h2]⟩
  rw [atColon, (e t ht).1, (e t ht).2, afterPrefix_append]
  rfl

/-- **C51.** The name of the type and the text of the value can be read off a PanicError, if the name of the type has no colon in it. -/
theorem C51_panic_parts (v : PanicVal) (h : (58 : Byte) ∉ v.typeName) : readPanicText (panicText v) = some (v.typeName, v.plusV) := by
  rw [readPanicText, panicText, List.append_assoc, List.append_assoc, afterPrefix_append]
  exact atColon_append _ h _

/-- The value, if it is one of the plain ones. -/
def PanicVal.plain : PanicVal → Option Plain
  | .nil => some .nil
  | .bool b => some (.bool b)
  | .int i => some (.int i)
  | .str s => some (.str s)
  | _ => none

/-- **C51.** A PanicError made of nil, of a boolean, an integer or a string says which. -/
theorem C51_panic (v : PanicVal) (p : Plain) (h : v.plain = some p) : readPanic (panicText v) = some p := by
  rw [readPanic, C51_panic_parts]
  · cases v with
    | nil => injection h with h; subst h; decide
    | bool b => injection h with h; subst h; cases b <;> decide
    | int i =>
      injection h with h
      subst h
      simp only [Option.bind_some, PanicVal.typeName, PanicVal.plusV]
      rw [if_neg (by decide), if_neg (by decide), if_pos trivial, decimal_itoa]
      rfl
    | str s =>
      injection h with h
      subst h
      simp only [Option.bind_some, PanicVal.typeName, PanicVal.plusV]
      rw [if_neg (by decide), if_neg (by decide), if_neg (by decide), if_pos trivial]
    | strs l => cases h
    | other t s => cases h
  · cases v with
    | other t s => cases h
    | _ => simp only [PanicVal.typeName]; decide

/-- **C51.** For slices it is not so: two panics with different values have the same text. -/
theorem C51_panic_ambiguous : ∃ v w : PanicVal, v ≠ w ∧ panicText v = panicText w :=
  ⟨.strs [lit "a b"], .strs [lit "a", lit "b"], by decide, by decide⟩

example : panicText (.str (lit "boom: 7")) = lit "panic called with value of type string: boom: 7" := by decide
example : panicText (.int (-7)) = lit "panic called with value of type int: -7" := by decide
example : (readPanic (panicText (.int (-7))), readPanic (panicText (.str (lit "-7")))) = (some (.int (-7)), some (.str (lit "-7"))) := by decide
example : panicText .nil = lit "panic called with value of type <nil>: <nil>" := by decide
example : panicText (.strs [lit "x", lit "y"]) = lit "panic called with value of type []string: [x y]" := by decide

end Verif
