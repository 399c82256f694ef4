import Verif.Model.MockText
import Verif.Spec.MockText
import Verif.Proofs.Quote
import Verif.Props.Describe
import Verif.Props.Mock

/-! # C59: the texts of scripted calls are unambiguous -/

set_option autoImplicit false

namespace Verif
open Spec

/-- Not the beginning or the continuation of a numeral. -/
def NoNum (t : GoStr) : Prop := ∀ b ∈ t.head?, ¬ (b = 45 ∨ (48 ≤ b.toNat ∧ b.toNat ≤ 57))

theorem itoa_bytes (i : Int) : ∀ b ∈ itoa i, b = 45 ∨ (48 ≤ b.toNat ∧ b.toNat ≤ 57) := by
  unfold itoa
  intro b hb
  split at hb
  · rcases List.mem_cons.1 hb with h | h
    · exact .inl h
    · exact .inr (digits_bytes _ _ b h)
  · exact .inr (digits_bytes _ _ b hb)

theorem number_itoa (n : Int) (t : GoStr) (ht : NoNum t) : number (itoa n ++ t) = some (n, t) := by
  have hb : ∀ b ∈ itoa n, (decide (b = 45) || (decide (48 ≤ b.toNat) && decide (b.toNat ≤ 57))) = true := by
    intro b hb
    have := itoa_bytes n b hb
    simpa using this
  have ht1 : t.takeWhile (fun b : Byte => decide (b = 45) || (decide (48 ≤ b.toNat) && decide (b.toNat ≤ 57))) = [] ∧
      t.dropWhile (fun b : Byte => decide (b = 45) || (decide (48 ≤ b.toNat) && decide (b.toNat ≤ 57))) = t := by
    cases t with
    | nil => exact ⟨rfl, rfl⟩
    | cons b t =>
      have := ht b (by simp)
      have e : (decide (b = 45) || (decide (48 ≤ b.toNat) && decide (b.toNat ≤ 57))) = false := by simpa using this
      exact ⟨by rw [List.takeWhile_cons]; simp [e], by rw [List.dropWhile_cons]; simp [e]⟩
  unfold number
  dsimp only
  rw [List.takeWhile_append_of_pos hb, List.dropWhile_append_of_pos hb, ht1.1, ht1.2, List.append_nil, decimal_itoa]
  rfl

theorem count_itoa (n : Nat) (t : GoStr) (ht : NoNum t) : count (itoa n ++ t) = some (n, t) := by
  unfold count
  rw [number_itoa _ _ ht]
  simp

theorem whence_whenceString (n : Int) (t : GoStr) (ht : NoNum t) : whence (whenceString n ++ t) = some (n, t) := by
  have no : ∀ p : GoStr, p.head? = some 105 → afterPrefix p (itoa n ++ t) = none := by
    intro p hp
    match p, hp with
    | c :: p, hp =>
      have hc : c = 105 := by simpa using hp
      subst hc
      cases hi : itoa n with
      | nil => exact absurd (decimal_itoa n) (by rw [hi]; simp [decimal])
      | cons b l =>
        have hb := itoa_bytes n b (by rw [hi]; simp)
        have hne : (105 : Byte) ≠ b := by
          rintro rfl
          revert hb
          decide
        have : ((105 : Byte) == b) = false := by simpa using hne
        simp [afterPrefix, List.isPrefixOf, this]
  unfold whenceString
  split
  · subst n
    simp [whence, afterPrefix_append]
  · split
    · subst n
      rfl
    · split
      · subst n
        rfl
      · simp only [whence, no (lit "io.SeekStart") rfl, no (lit "io.SeekCurrent") rfl, no (lit "io.SeekEnd") rfl]
        simpa using number_itoa n t ht

theorem noNum_lit (c : Byte) (p t : GoStr) (h : ¬ (c = 45 ∨ (48 ≤ c.toNat ∧ c.toNat ≤ 57))) : NoNum (c :: p ++ t) := by
  intro b hb
  have : b = c := by simpa using hb.symm
  rw [this]
  exact h

/-- Reading a call that is followed by anything. -/
theorem readCall_mark (E : TextEnv) (s t : GoStr) : readCall (lit "Mark(" ++ quote E.isPrint s ++ lit ")" ++ t) = some (some (.mark s), t) := by
  simp only [readCall, List.append_assoc, afterPrefix_append, literal_quote, Option.bind_eq_bind, Option.bind_some]
  rfl

theorem readCall_stat (t : GoStr) : readCall (lit "Stat()" ++ t) = some (some .stat, t) := by
  have h1 : ∀ s, afterPrefix (lit "Mark(") (lit "Stat()" ++ s) = none := fun _ => rfl
  simp only [readCall, afterPrefix_append, h1, Option.bind_eq_bind, Option.bind_some, Option.bind_none]
  rfl

theorem readCall_read (n : Nat) (t : GoStr) : readCall (lit "Read([" ++ itoa n ++ lit " bytes])" ++ t) = some (some (.read n), t) := by
  have h1 : ∀ s, afterPrefix (lit "Mark(") (lit "Read([" ++ s) = none := fun _ => rfl
  have h2 : ∀ s, afterPrefix (lit "Stat()") (lit "Read([" ++ s) = none := fun _ => rfl
  have h3 := count_itoa n (lit " bytes])" ++ t) (noNum_lit 32 (lit "bytes])") t (by decide))
  simp only [readCall, List.append_assoc, afterPrefix_append, h1, h2, h3, Option.bind_eq_bind, Option.bind_some, Option.bind_none]
  rfl

theorem readCall_readAt (n : Nat) (off : Int) (t : GoStr) :
    readCall (lit "ReadAt([" ++ itoa n ++ lit " bytes], " ++ itoa off ++ lit ")" ++ t) = some (some (.readAt n off), t) := by
  have h1 : ∀ s, afterPrefix (lit "Mark(") (lit "ReadAt([" ++ s) = none := fun _ => rfl
  have h2 : ∀ s, afterPrefix (lit "Stat()") (lit "ReadAt([" ++ s) = none := fun _ => rfl
  have h3 : ∀ s, afterPrefix (lit "Read([") (lit "ReadAt([" ++ s) = none := fun _ => rfl
  have h4 := count_itoa n (lit " bytes], " ++ (itoa off ++ (lit ")" ++ t))) (noNum_lit 32 (lit "bytes], ") _ (by decide))
  have h5 := number_itoa off (lit ")" ++ t) (noNum_lit 41 [] t (by decide))
  simp only [readCall, List.append_assoc, afterPrefix_append, h1, h2, h3, h4, h5, Option.bind_eq_bind, Option.bind_some, Option.bind_none]
  rfl

theorem readCall_seek (off wh : Int) (t : GoStr) :
    readCall (lit "Seek(" ++ itoa off ++ lit ", " ++ whenceString wh ++ lit ")" ++ t) = some (some (.seek off wh), t) := by
  have h1 : ∀ s, afterPrefix (lit "Mark(") (lit "Seek(" ++ s) = none := fun _ => rfl
  have h2 : ∀ s, afterPrefix (lit "Stat()") (lit "Seek(" ++ s) = none := fun _ => rfl
  have h3 : ∀ s, afterPrefix (lit "Read([") (lit "Seek(" ++ s) = none := fun _ => rfl
  have h3' : ∀ s, afterPrefix (lit "ReadAt([") (lit "Seek(" ++ s) = none := fun _ => rfl
  have h4 := number_itoa off (lit ", " ++ (whenceString wh ++ (lit ")" ++ t))) (noNum_lit 44 (lit " ") _ (by decide))
  have h5 := whence_whenceString wh (lit ")" ++ t) (noNum_lit 41 [] t (by decide))
  simp only [readCall, List.append_assoc, afterPrefix_append, h1, h2, h3, h3', h4, h5, Option.bind_eq_bind, Option.bind_some, Option.bind_none]
  rfl

theorem readCall_close (t : GoStr) : readCall (lit "Close()" ++ t) = some (some .close, t) := by
  have h1 : ∀ s, afterPrefix (lit "Mark(") (lit "Close()" ++ s) = none := fun _ => rfl
  have h2 : ∀ s, afterPrefix (lit "Stat()") (lit "Close()" ++ s) = none := fun _ => rfl
  have h3 : ∀ s, afterPrefix (lit "Read([") (lit "Close()" ++ s) = none := fun _ => rfl
  have h4 : ∀ s, afterPrefix (lit "ReadAt([") (lit "Close()" ++ s) = none := fun _ => rfl
  have h5 : ∀ s, afterPrefix (lit "Seek(") (lit "Close()" ++ s) = none := fun _ => rfl
  simp only [readCall, afterPrefix_append, h1, h2, h3, h4, h5, Option.bind_eq_bind, Option.bind_some, Option.bind_none]
  rfl

theorem readCall_nothing (t : GoStr) : readCall (lit "Nothing" ++ t) = some (none, t) := rfl

/-! ### Buffers -/

/-- `0x` and two digits. -/
def byteText (ch : Byte) : GoStr := lit "0x" ++ [lowerHex (ch.toNat / 16), lowerHex (ch.toNat % 16)]

theorem formatBytes_nil : formatBytes [] = lit "[" ++ lit "]" := rfl

theorem formatBytes_cons (b : Byte) (p : List Byte) :
    formatBytes (b :: p) = lit "[" ++ (byteText b ++ ((p.map fun ch => lit "," ++ byteText ch).flatten ++ lit "]")) := by
  unfold formatBytes
  rw [List.mapIdx_cons]
  have : (p.mapIdx fun i ch => (if i + 1 > 0 then lit "," else []) ++ (lit "0x" ++ [lowerHex (ch.toNat / 16), lowerHex (ch.toNat % 16)])) =
      p.map fun ch => lit "," ++ byteText ch := by
    rw [List.mapIdx_eq_iff]
    intro i
    simp [byteText]
  rw [this]
  simp [byteText]

theorem hexNum_byte (b : Byte) (t : GoStr) : hexNum 2 0 (lowerHex (b.toNat / 16) :: lowerHex (b.toNat % 16) :: t) = some (b.toNat, t) := by
  have := b.toNat_lt
  rw [hexNum_cons (by omega), hexNum_cons (by omega)]
  simp only [hexNum]
  rw [show 16 * (16 * 0 + b.toNat / 16) + b.toNat % 16 = b.toNat by omega]

theorem none_or {α : Type} (x : Option α) : (none <|> x) = x := rfl
theorem some_or {α : Type} (a : α) (x : Option α) : (some a <|> x) = some a := rfl

theorem readBytes_tail (p : List Byte) (t : GoStr) : ∀ fuel, p.length < fuel →
    readBytes fuel ((p.map fun ch => lit "," ++ byteText ch).flatten ++ (lit "]" ++ t)) = some (p, t) := by
  induction p with
  | nil =>
    intro fuel hf
    obtain ⟨f, rfl⟩ : ∃ f, fuel = f + 1 := ⟨fuel - 1, by omega⟩
    rfl
  | cons b p ih =>
    intro fuel hf
    obtain ⟨f, rfl⟩ : ∃ f, fuel = f + 1 := ⟨fuel - 1, by omega⟩
    have h1 : ∀ s, afterPrefix (lit "]") (44 :: s) = none := fun _ => rfl
    have h2 : ∀ s, afterPrefix (lit "0x") (44 :: s) = none := fun _ => rfl
    have h3 : ∀ s, afterPrefix (lit ",0x") (44 :: 48 :: 120 :: s) = some s := fun s => afterPrefix_append (lit ",0x") s
    have e : ((b :: p).map fun ch => lit "," ++ byteText ch).flatten ++ (lit "]" ++ t) =
        44 :: 48 :: 120 :: lowerHex (b.toNat / 16) :: lowerHex (b.toNat % 16) :: ((p.map fun ch => lit "," ++ byteText ch).flatten ++ (lit "]" ++ t)) := by
      rw [List.map_cons, List.flatten_cons, List.append_assoc, List.append_assoc]
      rfl
    rw [e]
    unfold readBytes
    rw [h1, h2, h3]
    simp only [Option.map_none, none_or, some_or, Option.bind_eq_bind, Option.bind_some, hexNum_byte]
    rw [ih f (by simpa using hf), Option.bind_some]
    simp

theorem readSlice_formatBytes (p : List Byte) (t : GoStr) : readSlice (formatBytes p ++ t) = some (p, t) := by
  cases p with
  | nil =>
    rw [formatBytes_nil, List.append_assoc]
    unfold readSlice
    rw [afterPrefix_append]
    rfl
  | cons b p =>
    rw [formatBytes_cons, List.append_assoc]
    unfold readSlice
    rw [afterPrefix_append, Option.bind_some]
    generalize hf : (byteText b ++ ((p.map fun ch => lit "," ++ byteText ch).flatten ++ lit "]") ++ t).length = f
    have hlen : p.length < f := by
      subst hf
      have h : ∀ p : List Byte, p.length ≤ ((p.map fun ch => lit "," ++ byteText ch).flatten).length := by
        intro p
        induction p with
        | nil => simp
        | cons b p ih => 
          rw [List.map_cons, List.flatten_cons, List.length_append, List.length_cons, List.length_append]
          have : (lit ",").length = 1 := rfl
          omega
      have h0 := h p
      simp only [List.length_append]
      have : (lit "]").length = 1 := rfl
      omega
    have h1 : ∀ s, afterPrefix (lit "]") (48 :: s) = none := fun _ => rfl
    have h2 : ∀ s, afterPrefix (lit "0x") (48 :: 120 :: s) = some s := fun s => afterPrefix_append (lit "0x") s
    have e : byteText b ++ ((p.map fun ch => lit "," ++ byteText ch).flatten ++ lit "]") ++ t =
        48 :: 120 :: lowerHex (b.toNat / 16) :: lowerHex (b.toNat % 16) :: ((p.map fun ch => lit "," ++ byteText ch).flatten ++ (lit "]" ++ t)) := by
      rw [List.append_assoc, List.append_assoc]
      rfl
    rw [e]
    unfold readBytes
    rw [h1, h2]
    simp only [Option.map_none, none_or, some_or, Option.bind_eq_bind, Option.bind_some, hexNum_byte]
    rw [readBytes_tail p t f hlen, Option.bind_some]
    simp

/-! ### Go syntax -/

theorem readGo_mark (E : TextEnv) (s t : GoStr) : readGoCall (lit "MarkOp" ++ lit " | " ++ quote E.isPrint s ++ t) = some (some (.mark s), [], t) := by
  have h0 : ∀ s, afterPrefix (lit "MarkOp | ") (lit "MarkOp" ++ (lit " | " ++ s)) = some s := fun s => afterPrefix_append (lit "MarkOp | ") s
  simp only [readGoCall, List.append_assoc, h0, literal_quote, Option.bind_eq_bind, Option.bind_some]
  rfl

theorem readGo_stat (t : GoStr) : readGoCall (lit "StatOp" ++ lit " | " ++ emptySign ++ t) = some (some .stat, [], t) := by
  have h0 : ∀ s, afterPrefix (lit "StatOp | ") (lit "StatOp" ++ (lit " | " ++ s)) = some s := fun s => afterPrefix_append (lit "StatOp | ") s
  have h1 : ∀ s, afterPrefix (lit "MarkOp | ") (lit "StatOp" ++ s) = none := fun _ => rfl
  have h2 : ∀ s, afterPrefix [0xE2, 0x88, 0x85] (emptySign ++ s) = some s := fun s => afterPrefix_append [0xE2, 0x88, 0x85] s
  simp only [readGoCall, List.append_assoc, h0, h1, h2, Option.bind_eq_bind, Option.bind_some, Option.bind_none]
  rfl

theorem readGo_read (p : List Byte) (t : GoStr) :
    readGoCall (lit "ReadOp" ++ lit " | " ++ formatBytes p ++ t) = some (some (.read p.length), p, t) := by
  have h0 : ∀ s, afterPrefix (lit "ReadOp | ") (lit "ReadOp" ++ (lit " | " ++ s)) = some s := fun s => afterPrefix_append (lit "ReadOp | ") s
  have h1 : ∀ s, afterPrefix (lit "MarkOp | ") (lit "ReadOp" ++ s) = none := fun _ => rfl
  have h2 : ∀ s, afterPrefix (lit "StatOp | ") (lit "ReadOp" ++ s) = none := fun _ => rfl
  simp only [readGoCall, List.append_assoc, h0, h1, h2, readSlice_formatBytes, Option.bind_eq_bind, Option.bind_some, Option.bind_none]
  rfl

theorem readGo_readAt (p : List Byte) (off : Int) (t : GoStr) (ht : NoNum t) :
    readGoCall (lit "ReadAtOp" ++ lit " | " ++ (formatBytes p ++ lit ", " ++ itoa off) ++ t) = some (some (.readAt p.length off), p, t) := by
  have h0 : ∀ s, afterPrefix (lit "ReadAtOp | ") (lit "ReadAtOp" ++ (lit " | " ++ s)) = some s := fun s => afterPrefix_append (lit "ReadAtOp | ") s
  have h1 : ∀ s, afterPrefix (lit "MarkOp | ") (lit "ReadAtOp" ++ s) = none := fun _ => rfl
  have h2 : ∀ s, afterPrefix (lit "StatOp | ") (lit "ReadAtOp" ++ s) = none := fun _ => rfl
  have h3 : ∀ s, afterPrefix (lit "ReadOp | ") (lit "ReadAtOp" ++ s) = none := fun _ => rfl
  simp only [readGoCall, List.append_assoc, h0, h1, h2, h3, readSlice_formatBytes, afterPrefix_append, number_itoa off t ht, Option.bind_eq_bind,
    Option.bind_some, Option.bind_none]
  rfl

theorem readGo_seek (off wh : Int) (t : GoStr) (ht : NoNum t) :
    readGoCall (lit "SeekOp" ++ lit " | " ++ (itoa off ++ lit ", " ++ itoa wh) ++ t) = some (some (.seek off wh), [], t) := by
  have h0 : ∀ s, afterPrefix (lit "SeekOp | ") (lit "SeekOp" ++ (lit " | " ++ s)) = some s := fun s => afterPrefix_append (lit "SeekOp | ") s
  have h1 : ∀ s, afterPrefix (lit "MarkOp | ") (lit "SeekOp" ++ s) = none := fun _ => rfl
  have h2 : ∀ s, afterPrefix (lit "StatOp | ") (lit "SeekOp" ++ s) = none := fun _ => rfl
  have h3 : ∀ s, afterPrefix (lit "ReadOp | ") (lit "SeekOp" ++ s) = none := fun _ => rfl
  have h4 : ∀ s, afterPrefix (lit "ReadAtOp | ") (lit "SeekOp" ++ s) = none := fun _ => rfl
  have h5 := number_itoa off (lit ", " ++ (itoa wh ++ t)) (noNum_lit 44 (lit " ") _ (by decide))
  simp only [readGoCall, List.append_assoc, h0, h1, h2, h3, h4, h5, afterPrefix_append, number_itoa wh t ht, Option.bind_eq_bind,
    Option.bind_some, Option.bind_none]
  rfl

theorem readGo_close (t : GoStr) : readGoCall (lit "CloseOp" ++ lit " | " ++ emptySign ++ t) = some (some .close, [], t) := by
  have h0 : ∀ s, afterPrefix (lit "CloseOp | ") (lit "CloseOp" ++ (lit " | " ++ s)) = some s := fun s => afterPrefix_append (lit "CloseOp | ") s
  have h1 : ∀ s, afterPrefix (lit "MarkOp | ") (lit "CloseOp" ++ s) = none := fun _ => rfl
  have h2 : ∀ s, afterPrefix (lit "StatOp | ") (lit "CloseOp" ++ s) = none := fun _ => rfl
  have h3 : ∀ s, afterPrefix (lit "ReadOp | ") (lit "CloseOp" ++ s) = none := fun _ => rfl
  have h4 : ∀ s, afterPrefix (lit "ReadAtOp | ") (lit "CloseOp" ++ s) = none := fun _ => rfl
  have h5 : ∀ s, afterPrefix (lit "SeekOp | ") (lit "CloseOp" ++ s) = none := fun _ => rfl
  have h6 : ∀ s, afterPrefix [0xE2, 0x88, 0x85] (emptySign ++ s) = some s := fun s => afterPrefix_append [0xE2, 0x88, 0x85] s
  simp only [readGoCall, List.append_assoc, h0, h1, h2, h3, h4, h5, h6, Option.bind_eq_bind, Option.bind_some, Option.bind_none]
  rfl

theorem readGo_nothing (t : GoStr) : readGoCall (lit "UnknownOp" ++ lit " | " ++ [] ++ t) = some (none, [], t) := rfl

/-! ### Expectations -/

/-- The call that an Expectation is about. -/
def Expectation.request (x : Expectation) : Option Request :=
  match x.op with
  | .mark => some (.mark x.input3)
  | .stat => some .stat
  | .read => some (.read x.input0.len)
  | .readAt => some (.readAt x.input0.len x.input1)
  | .seek => some (.seek x.input1 x.input2)
  | .close => some .close
  | .unknown => none

/-- The bytes of the buffer of the call. -/
def Expectation.bytes (x : Expectation) : List Byte :=
  match x.op with
  | .read => x.input0.take x.input0.len
  | .readAt => x.input0.take x.input0.len
  | _ => []

theorem readCall_callString (E : TextEnv) (x : Expectation) (t : GoStr) : readCall (x.callString E ++ t) = some (x.request, t) := by
  unfold Expectation.callString Expectation.request
  cases x.op with
  | mark => exact readCall_mark E x.input3 t
  | stat => exact readCall_stat t
  | read => exact readCall_read _ t
  | readAt => exact readCall_readAt _ _ t
  | seek => exact readCall_seek _ _ t
  | close => exact readCall_close t
  | unknown => exact readCall_nothing t

theorem readGo_head (E : TextEnv) (x : Expectation) (t : GoStr) (ht : NoNum t) :
    (afterPrefix (lit "Expectation{") (x.goStringHead E ++ t)).bind readGoCall = some (x.request, x.bytes, t) := by
  unfold Expectation.goStringHead Expectation.request Expectation.bytes
  rw [List.append_assoc, List.append_assoc, List.append_assoc, afterPrefix_append, Option.bind_some]
  have e : ∀ a b c : GoStr, a ++ (b ++ c) = a ++ b ++ c := fun a b c => (List.append_assoc a b c).symm
  cases x.op with
  | mark => dsimp only; rw [e, e]; exact readGo_mark E x.input3 t
  | stat => dsimp only; rw [e, e]; exact readGo_stat t
  | read =>
    dsimp only; rw [e, e]; have := readGo_read (x.input0.take x.input0.len) t; rw [Buf.length_take] at this; exact this
  | readAt =>
    dsimp only; rw [e, e]; have := readGo_readAt (x.input0.take x.input0.len) x.input1 t ht; rw [Buf.length_take] at this; exact this
  | seek => dsimp only; rw [e, e]; exact readGo_seek x.input1 x.input2 t ht
  | close => dsimp only; rw [e, e]; exact readGo_close t
  | unknown => exact readGo_nothing t

theorem read_ret {p : Buf} {n : Int} {err : Option Err} {e : Expectation} (h : Expectation.read p n err = .ret e) :
    0 ≤ n ∧ n ≤ p.len ∧ e = { op := .read, input0 := p, output0 := n, output2 := err, hasOutput := true } := by
  unfold Expectation.read at h
  by_cases h0 : n ≥ 0 <;> by_cases h1 : n ≤ p.len <;> simp [h0, h1] at h
  exact ⟨h0, h1, h.symm⟩

theorem readAt_ret {p : Buf} {off n : Int} {err : Option Err} {e : Expectation} (h : Expectation.readAt p off n err = .ret e) :
    0 ≤ n ∧ n ≤ p.len ∧ e = { op := .readAt, input0 := p, input1 := off, output0 := n, output2 := err, hasOutput := true } := by
  unfold Expectation.readAt at h
  by_cases h0 : n ≥ 0 <;> by_cases h1 : n ≤ p.len <;> simp [h0, h1] at h
  exact ⟨h0, h1, h.symm⟩

theorem formatAny_shown {α : Type} (f : α → GoStr) (a : Option α) : formatAny f a = shownAny f a := by cases a <;> rfl

theorem take_prefix (p : Buf) {k n : Nat} (h : k ≤ n) : p.take k <+: p.take n := by
  obtain ⟨d, rfl⟩ : ∃ d, n = k + d := ⟨n - k, by omega⟩
  unfold Buf.take
  rw [List.range_add, List.map_append]
  exact List.prefix_append _ _

/-- The outputs shown are those of the line. -/
theorem scripted_outputs (E : TextEnv) (nothing : GoStr) {e : Expectation} {r : Request} {a : Answer FileInfo} (h : Scripted e (r, a)) :
    e.request = some r ∧ e.hasOutput = true ∧ Shows E.fileInfo E.err nothing a (e.outputs E nothing) ∧
      (∀ d err, a = .read d err → d <+: e.bytes) := by
  cases h with
  | mark s => exact ⟨rfl, rfl, rfl, nofun⟩
  | stat fi err => exact ⟨rfl, rfl, by simp [Shows, Expectation.outputs, Expectation.tail, Expectation.stat, formatAny_shown], nofun⟩
  | read p n err e h =>
    obtain ⟨h0, h1, rfl⟩ := read_ret h
    refine ⟨rfl, rfl, ⟨itoa n, ?_, ?_⟩, ?_⟩
    · rw [decimal_itoa, Buf.length_take, Int.toNat_of_nonneg h0]
    · simp [Expectation.outputs, Expectation.tail, formatAny_shown]
    · intro d err' hd
      cases hd
      exact take_prefix p (show n.toNat ≤ p.len by omega)
  | readAt p off n err e h =>
    obtain ⟨h0, h1, rfl⟩ := readAt_ret h
    refine ⟨rfl, rfl, ⟨itoa n, ?_, ?_⟩, ?_⟩
    · rw [decimal_itoa, Buf.length_take, Int.toNat_of_nonneg h0]
    · simp [Expectation.outputs, Expectation.tail, formatAny_shown]
    · intro d err' hd
      cases hd
      exact take_prefix p (show n.toNat ≤ p.len by omega)
  | seek off wh n err =>
    exact ⟨rfl, rfl, ⟨itoa n, decimal_itoa n, by simp [Expectation.outputs, Expectation.tail, Expectation.seek, formatAny_shown]⟩, nofun⟩
  | close err => exact ⟨rfl, rfl, by simp [Shows, Expectation.outputs, Expectation.tail, Expectation.close, formatAny_shown], nofun⟩

/-- **C59.** A line of a script, as text: the call can be read off, and then the answer is shown. -/
theorem C59_line (E : TextEnv) (e : Expectation) (r : Request) (a : Answer FileInfo) (h : Scripted e (r, a)) :
    ∃ out, readCall (e.string E) = some (some r, lit " => (" ++ out ++ lit ")") ∧ Shows E.fileInfo E.err [] a out := by
  obtain ⟨h1, h2, h3, -⟩ := scripted_outputs E [] h
  refine ⟨e.outputs E [], ?_, h3⟩
  unfold Expectation.string
  rw [h2, readCall_callString, h1]
  rfl

/-- **C59.** A line of a script, in Go syntax: also what is read can be read off. -/
theorem C59_line_go (E : TextEnv) (e : Expectation) (r : Request) (a : Answer FileInfo) (h : Scripted e (r, a)) :
    ∃ s buf out, e.goString E = lit "Expectation{" ++ s ∧ readGoCall s = some (some r, buf, lit " | " ++ out ++ lit "}") ∧
      Shows E.fileInfo E.err emptySign a out ∧ (∀ d err, a = .read d err → d <+: buf) := by
  obtain ⟨h1, h2, h3, h4⟩ := scripted_outputs E emptySign h
  have hg := readGo_head E e (lit " | " ++ e.outputs E emptySign ++ lit "}") (noNum_lit 32 (lit "| ") _ (by decide))
  rw [h1] at hg
  have hs : e.goString E = e.goStringHead E ++ (lit " | " ++ e.outputs E emptySign ++ lit "}") := by
    unfold Expectation.goString
    rw [h2, List.append_assoc]
    rfl
  rw [← hs] at hg
  have hp : ∃ s, e.goString E = lit "Expectation{" ++ s := by
    unfold Expectation.goString Expectation.goStringHead
    simp only [List.append_assoc]
    exact ⟨_, rfl⟩
  obtain ⟨s, hs'⟩ := hp
  rw [hs', afterPrefix_append, Option.bind_some] at hg
  exact ⟨s, _, _, hs', hg, h3, h4⟩

/-- **C59.** A call, as text: the call can be read off, and nothing follows. -/
theorem C59_call (E : TextEnv) (c : Request) : readCall (c.actual.string E) = some (some c, []) := by
  have hr : c.actual.request = some c ∧ c.actual.hasOutput = false := by cases c <;> exact ⟨rfl, rfl⟩
  unfold Expectation.string
  rw [hr.2, readCall_callString, hr.1]
  rfl

/-- **C59.** A call in Go syntax. -/
theorem C59_call_go (E : TextEnv) (c : Request) :
    ∃ s buf, c.actual.goString E = lit "Expectation{" ++ s ∧ readGoCall s = some (some c, buf, lit "}") := by
  have hr : c.actual.request = some c ∧ c.actual.hasOutput = false := by cases c <;> exact ⟨rfl, rfl⟩
  have hg := readGo_head E c.actual (lit "}") (noNum_lit 125 [] [] (by decide))
  rw [hr.1] at hg
  have hs : c.actual.goString E = c.actual.goStringHead E ++ lit "}" := by
    unfold Expectation.goString
    rw [hr.2, List.append_assoc]
    rfl
  rw [← hs] at hg
  have hp : ∃ s, c.actual.goString E = lit "Expectation{" ++ s := by
    unfold Expectation.goString Expectation.goStringHead
    simp only [List.append_assoc]
    exact ⟨_, rfl⟩
  obtain ⟨s, hs'⟩ := hp
  rw [hs', afterPrefix_append, Option.bind_some] at hg
  exact ⟨s, _, hs', hg⟩

/-- **C59.** What is expected after the end of a script: nothing. -/
theorem C59_nothing (E : TextEnv) : readCall (({} : Expectation).string E) = some (none, []) ∧
    ({} : Expectation).goString E = lit "Expectation{UnknownOp | }" := ⟨rfl, rfl⟩

/-- **C59.** A report of a call that was not the scripted one: it has the number of the line, the line and the call. -/
theorem C59_report (E : TextEnv) (es : List Expectation) (lines : List (Request × Answer FileInfo)) (h : ScriptedAll es lines) (i j : Nat)
    (hi : i ≤ es.length) (c : Request) (hr : (MockPtr.call (some ⟨es, i⟩) c).2.verdict = some (.rejected j)) :
    ∃ n x y o, failedText E j (MockPtr.call (some ⟨es, i⟩) c).2.expect (MockPtr.call (some ⟨es, i⟩) c).2.actual =
        lit "MockReader expectation #" ++ n ++ lit " failed: expected " ++ [0xC2, 0xAB] ++ x ++ [0xC2, 0xBB] ++ lit "; got " ++ [0xC2, 0xAB] ++ y ++ [0xC2, 0xBB] ∧
      decimal n = some (i : Int) ∧
      readCall x = some (lines[i]?.map Prod.fst, o) ∧
      (∀ l ∈ lines[i]?, ∃ out, o = lit " => (" ++ out ++ lit ")" ∧ Shows E.fileInfo E.err [] l.2 out) ∧
      readCall y = some (some c, []) ∧
      lines[i]?.map Prod.fst ≠ some c := by
  obtain ⟨rfl, h1, h2⟩ := C52_report es lines h i j hi c hr
  refine ⟨itoa j, es[j]?.getD {} |>.string E, c.actual.string E, ?_⟩
  by_cases hlt : j < es.length
  · have hlt' : j < lines.length := by have := h.1; omega
    have hs : Scripted es[j] (lines[j].1, lines[j].2) := h.2 j _ _ (by simp [hlt]) (by simp [hlt'])
    obtain ⟨o, ho, hsh⟩ := C59_line E _ _ _ hs
    refine ⟨lit " => (" ++ o ++ lit ")", by rw [h1, h2]; rfl, decimal_itoa _, ?_, ?_, C59_call E c, ?_⟩
    · simpa [hlt, hlt'] using ho
    · intro l hl
      rw [List.getElem?_eq_getElem hlt'] at hl
      cases hl
      exact ⟨o, rfl, hsh⟩
    · intro hc
      have h3 := (call_line es j es[j] lines[j].1 lines[j].2 c (by simp [hlt]) hs).2.1
      rw [h3] at hr
      simp only [List.getElem?_eq_getElem hlt', Option.map_some, Option.some.injEq] at hc
      simp [hc] at hr
  · have hn : lines[j]? = none := by rw [List.getElem?_eq_none]; have := h.1; omega
    have hn' : es[j]? = none := by rw [List.getElem?_eq_none]; omega
    refine ⟨[], by rw [h1, h2]; rfl, decimal_itoa _, ?_, ?_, C59_call E c, ?_⟩
    · rw [hn, hn']; exact (C59_nothing E).1
    · rw [hn]; nofun
    · rw [hn]; nofun

/-- **C59.** So the report never shows the same thing twice. -/
theorem C59_differ (E : TextEnv) (es : List Expectation) (lines : List (Request × Answer FileInfo)) (h : ScriptedAll es lines) (i j : Nat)
    (hi : i ≤ es.length) (c : Request) (hr : (MockPtr.call (some ⟨es, i⟩) c).2.verdict = some (.rejected j)) :
    (MockPtr.call (some ⟨es, i⟩) c).2.expect.string E ≠ (MockPtr.call (some ⟨es, i⟩) c).2.actual.string E ∧
    (MockPtr.call (some ⟨es, i⟩) c).2.expect.callString E ≠ (MockPtr.call (some ⟨es, i⟩) c).2.actual.callString E := by
  have hx : ∀ t, readCall ((MockPtr.call (some ⟨es, i⟩) c).2.expect.callString E ++ t) = some (lines[i]?.map Prod.fst, t) ∧ lines[i]?.map Prod.fst ≠ some c := by
    intro t
    obtain ⟨n, x, y, o, -, -, -, -, -, hne⟩ := C59_report E es lines h i j hi c hr
    refine ⟨?_, hne⟩
    obtain ⟨rfl, h1, h2⟩ := C52_report es lines h i j hi c hr
    rw [readCall_callString, h1]
    by_cases hlt : j < es.length
    · have hlt' : j < lines.length := by have := h.1; omega
      have hs : Scripted es[j] (lines[j].1, lines[j].2) := h.2 j _ _ (by simp [hlt]) (by simp [hlt'])
      simp [hlt, hlt', (scripted_outputs E [] hs).1]
    · have hn : lines[j]? = none := by rw [List.getElem?_eq_none]; have := h.1; omega
      have hn' : es[j]? = none := by rw [List.getElem?_eq_none]; omega
      rw [hn, hn']; rfl
  have hy : ∀ t, readCall ((MockPtr.call (some ⟨es, i⟩) c).2.actual.callString E ++ t) = some (some c, t) := by
    intro t
    rw [(C52_report es lines h i j hi c hr).2.2, readCall_callString]
    cases c <;> rfl
  constructor
  · intro he
    have h1 := (hx (if (MockPtr.call (some ⟨es, i⟩) c).2.expect.hasOutput then lit " => (" ++ (MockPtr.call (some ⟨es, i⟩) c).2.expect.outputs E [] ++ lit ")" else []))
    have h2 := (hy (if (MockPtr.call (some ⟨es, i⟩) c).2.actual.hasOutput then lit " => (" ++ (MockPtr.call (some ⟨es, i⟩) c).2.actual.outputs E [] ++ lit ")" else []))
    unfold Expectation.string at he
    rw [he, h2] at h1
    simp only [Option.some.injEq, Prod.mk.injEq] at h1
    exact h1.2 h1.1.1.symm
  · intro he
    have h1 := hx []
    rw [he, hy []] at h1
    simp only [Option.some.injEq, Prod.mk.injEq] at h1
    exact h1.2 h1.1.1.symm

/-- **C59.** The names of the operations are different. -/
theorem C59_ops (a b : MockOp) : (a.string = b.string ↔ a = b) ∧ (a.goString = b.goString ↔ a = b) := by
  cases a <;> cases b <;> decide

/-! ### Some texts -/

/-- ASCII is printed; errors and FileInfos are shown in some way. -/
def env : TextEnv where
  isPrint r := 32 ≤ r && r < 127
  fileInfo _ := lit "mockreader.FileInfo[...]"
  err _ := lit "*errors.errorString[EOF]"

example : (fourLines.map fun e => e.string env) =
    [lit "Stat() => (mockreader.FileInfo[...], nil)", lit "Read([3 bytes]) => (2, *errors.errorString[EOF])", lit "Mark(\"x\") => ()",
      lit "Close() => (nil)"] := by decide +kernel

example : (fourLines.map fun e => e.goString env) =
    [lit "Expectation{StatOp | " ++ emptySign ++ lit " | mockreader.FileInfo[...], nil}",
      lit "Expectation{ReadOp | [0x61,0x62,0x63] | 2, *errors.errorString[EOF]}",
      lit "Expectation{MarkOp | \"x\" | " ++ emptySign ++ lit "}", lit "Expectation{CloseOp | " ++ emptySign ++ lit " | nil}"] := by decide +kernel

/-- A mark that looks like the end of its text, and one that is not UTF-8. -/
example : (Expectation.mark (lit "\") => ()")).string env = lit "Mark(\"\\\") => ()\") => ()" ∧
    (Expectation.mark [0xFF, 10]).string env = lit "Mark(\"\\xff\\n\") => ()" := by decide +kernel

example : readCall (lit "ReadAt([16 bytes], -3) => (0, nil)") = some (some (.readAt 16 (-3)), lit " => (0, nil)") := by decide +kernel

example : readCall (lit "Seek(5, io.SeekEnd)") = some (some (.seek 5 2), []) ∧ readCall (lit "Seek(5, 7)") = some (some (.seek 5 7), []) := by decide +kernel

example : failedText env 1 (MockPtr.call (some ⟨fourLines, 1⟩) (.read 4)).2.expect (MockPtr.call (some ⟨fourLines, 1⟩) (.read 4)).2.actual =
    lit "MockReader expectation #1 failed: expected " ++ [0xC2, 0xAB] ++ lit "Read([3 bytes]) => (2, *errors.errorString[EOF])" ++ [0xC2, 0xBB] ++
      lit "; got " ++ [0xC2, 0xAB] ++ lit "Read([4 bytes])" ++ [0xC2, 0xBB] := by decide +kernel

example : (MockPtr.call (some ⟨fourLines, 1⟩) (.read 4)).2.expect.string env ≠ (MockPtr.call (some ⟨fourLines, 1⟩) (.read 4)).2.actual.string env :=
  (C59_differ env _ _ fourLines_scripted 1 1 (by decide) (.read 4) (by decide +kernel)).1

end Verif
