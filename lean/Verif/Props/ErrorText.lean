import Verif.Spec.ErrorText
import Verif.Props.MockText

/-! # C51: reading errors back -/

set_option autoImplicit false

namespace Verif
open Spec

theorem between_hit (a z : GoStr) (n : Int) (hz : NoNum z) : between a z (a ++ (itoa n ++ z)) = some n := by
  unfold between
  rw [afterPrefix_append]
  simp only [Option.bind_eq_bind, Option.bind_some, number_itoa n z hz, if_true]

theorem between_miss {a z s : GoStr} (h : afterPrefix a s = none) : between a z s = none := by
  unfold between
  rw [h]
  rfl

/-- **C51.** Errors have a `GoString` exactly if they are of one of the three types for Seek errors, and the error can be read off. -/
theorem C51_read_goString (e : Err) (s : GoStr) (h : errorGoString e = some s) : readGoError s = some e := by
  have m1 : ∀ t, between (lit "UnknownWhenceSeekError{") (lit "}") (lit "NegativeStartOffsetSeekError{" ++ t) = none := fun t => between_miss rfl
  have m2 : ∀ t, between (lit "UnknownWhenceSeekError{") (lit "}") (lit "NegativeComputedOffsetSeekError{" ++ t) = none := fun t => between_miss rfl
  have m3 : ∀ t, between (lit "NegativeStartOffsetSeekError{") (lit "}") (lit "NegativeComputedOffsetSeekError{" ++ t) = none :=
    fun t => between_miss rfl
  have hz : NoNum (lit "}") := noNum_lit 125 [] [] (by decide)
  cases e <;> simp only [errorGoString, Option.some.injEq, reduceCtorEq] at h <;> subst h <;>
    simp only [readGoError, List.append_assoc, m1, m2, m3, between_hit _ _ _ hz] <;> rfl

theorem C51_has_goString (e : Err) :
    (errorGoString e).isSome = true ↔ (∃ w, e = .unknownWhence w) ∨ (∃ o, e = .negStart o) ∨ (∃ o, e = .negComputed o) := by
  cases e <;> simp [errorGoString]

theorem readError_hit (other : Err → GoStr) (e : Err) (h : MadeHere e) : ∀ fuel, (errorMsg other e).length < fuel → readError fuel (errorMsg other e) = some e := by
  have hz : NoNum (lit " is negative") := noNum_lit 32 (lit "is negative") [] (by decide)
  have h0 : NoNum [] := by intro b hb; cases hb
  have b0 := fun n => between_hit (lit "Seek error: unknown whence value ") [] n h0
  simp only [List.append_nil] at b0
  induction h with
  | unknownWhence w =>
    intro fuel hf
    obtain ⟨f, rfl⟩ : ∃ f, fuel = f + 1 := ⟨fuel - 1, by omega⟩
    simp only [errorMsg, readError, b0]
    rfl
  | negStart o =>
    intro fuel hf
    obtain ⟨f, rfl⟩ : ∃ f, fuel = f + 1 := ⟨fuel - 1, by omega⟩
    have m1 : ∀ t z, between (lit "Seek error: unknown whence value ") z (lit "Seek error: whence is io.SeekStart but offset " ++ t) = none :=
      fun t z => between_miss rfl
    simp only [errorMsg, readError, List.append_assoc, m1, between_hit _ _ _ hz]
    rfl
  | negComputed o =>
    intro fuel hf
    obtain ⟨f, rfl⟩ : ∃ f, fuel = f + 1 := ⟨fuel - 1, by omega⟩
    have m1 : ∀ t z, between (lit "Seek error: unknown whence value ") z (lit "Seek error: computed offset " ++ t) = none :=
      fun t z => between_miss rfl
    have m2 : ∀ t z, between (lit "Seek error: whence is io.SeekStart but offset ") z (lit "Seek error: computed offset " ++ t) = none :=
      fun t z => between_miss rfl
    simp only [errorMsg, readError, List.append_assoc, m1, m2, between_hit _ _ _ hz]
    rfl
  | negReadAt o =>
    intro fuel hf
    obtain ⟨f, rfl⟩ : ∃ f, fuel = f + 1 := ⟨fuel - 1, by omega⟩
    have m1 : ∀ t z, between (lit "Seek error: unknown whence value ") z (lit "ReadAt error: offset " ++ t) = none :=
      fun t z => between_miss rfl
    have m2 : ∀ t z, between (lit "Seek error: whence is io.SeekStart but offset ") z (lit "ReadAt error: offset " ++ t) = none :=
      fun t z => between_miss rfl
    have m3 : ∀ t z, between (lit "Seek error: computed offset ") z (lit "ReadAt error: offset " ++ t) = none :=
      fun t z => between_miss rfl
    simp only [errorMsg, readError, List.append_assoc, m1, m2, m3, between_hit _ _ _ hz]
    rfl
  | viaStat _ ih =>
    intro fuel hf
    obtain ⟨f, rfl⟩ : ∃ f, fuel = f + 1 := ⟨fuel - 1, by omega⟩
    have m : ∀ t z, between (lit "Seek error: unknown whence value ") z (lit "failed to determine length of body via Stat: " ++ t) = none ∧
        between (lit "Seek error: whence is io.SeekStart but offset ") z (lit "failed to determine length of body via Stat: " ++ t) = none ∧
        between (lit "Seek error: computed offset ") z (lit "failed to determine length of body via Stat: " ++ t) = none ∧
        between (lit "ReadAt error: offset ") z (lit "failed to determine length of body via Stat: " ++ t) = none :=
      fun t z => ⟨between_miss rfl, between_miss rfl, between_miss rfl, between_miss rfl⟩
    simp only [errorMsg, List.length_append] at hf
    simp only [errorMsg, readError, (m _ _).1, (m _ _).2.1, (m _ _).2.2.1, (m _ _).2.2.2, afterPrefix_append, Option.bind_some,
      ih f (by have : 0 < (lit "failed to determine length of body via Stat: ").length := by decide
               omega)]
    rfl
  | viaSeek _ ih =>
    intro fuel hf
    obtain ⟨f, rfl⟩ : ∃ f, fuel = f + 1 := ⟨fuel - 1, by omega⟩
    have m : ∀ t z, between (lit "Seek error: unknown whence value ") z (lit "failed to determine length of body via Seek: " ++ t) = none ∧
        between (lit "Seek error: whence is io.SeekStart but offset ") z (lit "failed to determine length of body via Seek: " ++ t) = none ∧
        between (lit "Seek error: computed offset ") z (lit "failed to determine length of body via Seek: " ++ t) = none ∧
        between (lit "ReadAt error: offset ") z (lit "failed to determine length of body via Seek: " ++ t) = none :=
      fun t z => ⟨between_miss rfl, between_miss rfl, between_miss rfl, between_miss rfl⟩
    have m5 : ∀ t, afterPrefix (lit "failed to determine length of body via Stat: ") (lit "failed to determine length of body via Seek: " ++ t) = none :=
      fun t => rfl
    simp only [errorMsg, List.length_append] at hf
    simp only [errorMsg, readError, (m _ _).1, (m _ _).2.1, (m _ _).2.2.1, (m _ _).2.2.2, m5, afterPrefix_append, Option.bind_some,
      ih f (by have : 0 < (lit "failed to determine length of body via Seek: ").length := by decide
               omega)]
    rfl
  | viaRewind _ ih =>
    intro fuel hf
    obtain ⟨f, rfl⟩ : ∃ f, fuel = f + 1 := ⟨fuel - 1, by omega⟩
    have m : ∀ t z, between (lit "Seek error: unknown whence value ") z (lit "failed to rewind to start of file via Seek: " ++ t) = none ∧
        between (lit "Seek error: whence is io.SeekStart but offset ") z (lit "failed to rewind to start of file via Seek: " ++ t) = none ∧
        between (lit "Seek error: computed offset ") z (lit "failed to rewind to start of file via Seek: " ++ t) = none ∧
        between (lit "ReadAt error: offset ") z (lit "failed to rewind to start of file via Seek: " ++ t) = none :=
      fun t z => ⟨between_miss rfl, between_miss rfl, between_miss rfl, between_miss rfl⟩
    have m5 : ∀ t, afterPrefix (lit "failed to determine length of body via Stat: ") (lit "failed to rewind to start of file via Seek: " ++ t) = none :=
      fun t => rfl
    have m6 : ∀ t, afterPrefix (lit "failed to determine length of body via Seek: ") (lit "failed to rewind to start of file via Seek: " ++ t) = none :=
      fun t => rfl
    simp only [errorMsg, List.length_append] at hf
    simp only [errorMsg, readError, (m _ _).1, (m _ _).2.1, (m _ _).2.2.1, (m _ _).2.2.2, m5, m6, afterPrefix_append, Option.bind_some,
      ih f (by have : 0 < (lit "failed to rewind to start of file via Seek: ").length := by decide
               omega)]
    rfl

/-- **C51.** The error can be read off its text. -/
theorem C51_read_error (other : Err → GoStr) (e : Err) (h : MadeHere e) :
    readError ((errorMsg other e).length + 1) (errorMsg other e) = some e :=
  readError_hit other e h _ (by omega)

/-- **C51.** Wrapping leaves the text of the error at the end. -/
theorem C51_wrapped (other : Err → GoStr) (e : Err) :
    errorMsg other (.viaStat e) = lit "failed to determine length of body via Stat: " ++ errorMsg other e ∧
    errorMsg other (.viaSeek e) = lit "failed to determine length of body via Seek: " ++ errorMsg other e ∧
    errorMsg other (.viaRewind e) = lit "failed to rewind to start of file via Seek: " ++ errorMsg other e := ⟨rfl, rfl, rfl⟩

example : readGoError (lit "NegativeStartOffsetSeekError{-7}") = some (.negStart (-7)) ∧ readGoError (lit "SeekError{-7}") = none := by decide +kernel

example : readError 99 (lit "failed to determine length of body via Seek: Seek error: unknown whence value 3") = some (.viaSeek (.unknownWhence 3)) := by
  decide +kernel

example : MadeHere (.viaSeek (.unknownWhence 3)) := .viaSeek (.unknownWhence 3)

end Verif
