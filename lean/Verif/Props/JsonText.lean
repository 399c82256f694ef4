import Verif.Proofs.JsonNest
import Verif.Props.Json

/-!
# C79: values that encode themselves, with any bytes

What `FromPrettyJSON` serves is a text of the grammar in RFC 8259, whatever the value; it panics if a part of the value encodes itself as something else.
-/

set_option autoImplicit false

namespace Verif
open Spec.Json Json

/-- `encoding/json` accepts from a value that encodes itself exactly the texts of the grammar that are nested at most 10000 levels. -/
theorem C79_checked (t : GoStr) : (∃ u, marshal (.own t) = .ok u) ↔ ∃ n, n ≤ 10000 ∧ IsText n t := by
  rw [marshal]
  exact (squeezed_acc t).trans (acc_text t)

theorem ws_two : Ws (lit "  ") := by
  intro b hb
  exact .inl (by revert b; decide +kernel)

/-- What `FromPrettyJSON` serves is made by `Indent`. -/
theorem fromPretty_indent {v : JVal} {F : MemFam} (h : fromPrettyJSONOf v = .ret F) :
    ∃ u d, marshal v = .ok u ∧ indent (u ++ [10]) (lit "  ") = .ok d ∧ F = fromBytes (Spec.crlf d) := by
  unfold fromPrettyJSONOf at h
  cases he : encoder v true with
  | error e => rw [C25_encoder_error _ _ he] at h; cases h
  | ok d =>
    rw [fromPrettyJSON, fromJSONImpl, he] at h
    simp only [if_true] at h
    rw [crlf_foldl, List.nil_append] at h
    cases h
    rw [encoder, if_pos rfl, encode] at he
    cases hm : marshal v with
    | error e => rw [hm] at he; cases he
    | ok u =>
      rw [hm] at he
      simp only [] at he
      rw [if_neg (by decide)] at he
      exact ⟨u, d, rfl, he, rfl⟩

/-- Whatever the value is: what is served is a text of the grammar. -/
theorem C79_served {v : JVal} {F : MemFam} (h : fromPrettyJSONOf v = .ret F) : ∃ d n, F = fromBytes d ∧ n ≤ 10000 ∧ IsText n d := by
  obtain ⟨u, d, _, h2, rfl⟩ := fromPretty_indent h
  obtain ⟨n, h3, h4⟩ := (acc_text _).1 (crlf_acc d inner_start (indent_out ws_two h2))
  exact ⟨_, n, rfl, h3, h4⟩

theorem fromPretty_ok {v : JVal} {u : GoStr} (hu : marshal v = .ok u) {n : Nat} (hn : n ≤ 10000) (ht : IsText n u) : ∃ F, fromPrettyJSONOf v = .ret F := by
  obtain ⟨w, x, w', rfl, h2, h3, h4⟩ := ht
  obtain ⟨d, hd⟩ := (indent_acc ws_two (w ++ x ++ w' ++ [10])).2
    ((acc_text _).2 ⟨n, hn, w, x, w' ++ [10], by simp, h2, h3, ws_append h4 (by intro b hb; simp at hb; simp [hb])⟩)
  refine ⟨fromBytes (Spec.crlf d), ?_⟩
  unfold fromPrettyJSONOf
  have he : encoder v true = .ok d := by
    rw [encoder, if_pos rfl, encode, hu]
    simp only []
    rw [if_neg (by decide), hd]
  rw [fromPrettyJSON, fromJSONImpl, he]
  simp only [if_true]
  rw [crlf_foldl, List.nil_append]

/-- Which values are taken, whatever encodes itself in them. -/
theorem C79_takes {v : JVal} (hv : FieldNamed v) : (∃ F, fromPrettyJSONOf v = .ret F) ↔ Fits 10000 v := by
  constructor
  · rintro ⟨F, h⟩
    obtain ⟨u, d, h1, h2, _⟩ := fromPretty_indent h
    obtain ⟨u', m, h3, h4, h5⟩ := marshal_whole v hv ⟨u, h1⟩
    cases h1.symm.trans h3
    obtain ⟨n, hn, ht⟩ := (acc_text _).1 ((indent_acc ws_two _).1 ⟨d, h2⟩)
    obtain ⟨w, x, w', rfl, k1, k2, k3⟩ := h4
    have : n = m := text_unique ht ⟨w, x, w' ++ [10], by simp, k1, k2, ws_append k3 (by intro b hb; simp at hb; simp [hb])⟩
    exact (h5 _).2 (this ▸ hn)
  · intro h
    obtain ⟨u, m, h1, h2, h3⟩ := marshal_whole v hv (fits_marshal h (Nat.le_refl _))
    exact fromPretty_ok h1 ((h3 _).1 h) h2

/-- It panics for all others. -/
theorem C79_refuses {v : JVal} (hv : FieldNamed v) : (∃ e, fromPrettyJSONOf v = .panic (.error e)) ↔ ¬ Fits 10000 v := by
  rw [← C79_takes hv]
  constructor
  · rintro ⟨e, h⟩ ⟨F, h'⟩
    rw [h] at h'; cases h'
  · intro h
    cases he : encoder v true with
    | error e => exact ⟨e, C25_encoder_error _ _ he⟩
    | ok d => exact absurd ⟨fromBytes (d.foldl (fun dst ch => if ch = 10 then dst ++ [13, 10] else dst ++ [ch]) []), by rw [fromPrettyJSONOf, fromPrettyJSON, fromJSONImpl, he]; simp only [if_true]⟩ h

/-- A value that encodes itself is taken exactly if the bytes are such a text. -/
theorem C79_own (t : GoStr) : (∃ F, fromPrettyJSONOf (.own t) = .ret F) ↔ ∃ n, n ≤ 10000 ∧ IsText n t := by
  rw [C79_takes (.own t)]
  exact ⟨fun h => by cases h with | own h1 h2 => exact ⟨_, h1, h2⟩, fun ⟨n, h1, h2⟩ => .own h1 h2⟩

theorem marshal_within {u v : JVal} (h : Within u v) (hv : ∃ t, marshal v = .ok t) : ∃ t, marshal u = .ok t := by
  induction h with
  | here => exact hv
  | arr hm _ ih => exact ih ((marshal_arr _).1 hv _ hm)
  | struct hm _ ih => exact ih ((marshal_struct _).1 hv _ hm)
  | map hm _ ih => exact ih ((marshal_map _).1 hv _ hm)

/-- `FromJSON` takes a value exactly if each of its simple parts can be encoded: nesting is counted only inside of what encodes itself.  The Body is empty. -/
theorem C79_plain_takes (v : JVal) :
    (fromJSONOf v = .ret (fromBytes []) ↔ ∀ x, Within x v → Simple x → Fits 10000 x) ∧
      ((∃ e, fromJSONOf v = .panic (.error e)) ↔ ∃ x, Within x v ∧ Simple x ∧ ¬ Fits 10000 x) := by
  have key : (∃ u, marshal v = .ok u) ↔ ∀ x, Within x v → Simple x → Fits 10000 x :=
    ⟨fun h _ hx hs => simple_fits hs (marshal_within hx h), parts_marshal v⟩
  have key' : (∃ x, Within x v ∧ Simple x ∧ ¬ Fits 10000 x) ↔ ¬ ∃ u, marshal v = .ok u := by
    rw [key]
    simp only [Classical.not_forall, exists_prop]
  rw [← key, key']
  cases hm : marshal v with
  | ok u =>
    have he : encoder v false = .ok (u ++ [10]) := by rw [encoder, encode, hm]; rfl
    have hr : fromJSONOf v = .ret (fromBytes []) := by rw [fromJSONOf, fromJSON, fromJSONImpl, he]; simp [goCopy]
    rw [hr]
    simp
  | error e =>
    have he : encoder v false = .error e := by rw [encoder, encode, hm]
    have hr : fromJSONOf v = .panic (.error e) := by rw [fromJSONOf, fromJSON, fromJSONImpl, he]
    rw [hr]
    simp

/-- The same inside of other values, also for `FromJSON`: no part may encode itself as anything else. -/
theorem C79_own_inside {v : JVal} {F : MemFam} (h : fromPrettyJSONOf v = .ret F ∨ fromJSONOf v = .ret F) {t : GoStr} (ht : Within (.own t) v) :
    ∃ n, n ≤ 10000 ∧ IsText n t := by
  refine (C79_checked t).1 (marshal_within ht ?_)
  cases hm : marshal v with
  | ok u => exact ⟨u, rfl⟩
  | error e =>
    exfalso
    rcases h with h | h
    · obtain ⟨u, _, h1, _⟩ := fromPretty_indent h
      rw [hm] at h1; cases h1
    · have he : encoder v false = .error e := by rw [encoder, encode, hm]
      rw [fromJSONOf, fromJSON, fromJSONImpl, he] at h
      cases h

/-- Nothing but blanks outside of strings is changed. -/
theorem C79_blanks {t : GoStr} {F : MemFam} (h : fromPrettyJSONOf (.own t) = .ret F) : ∃ d, F = fromBytes d ∧ SameButBlanks d t := by
  obtain ⟨u, d, h1, h2, rfl⟩ := fromPretty_indent h
  rw [marshal] at h1
  refine ⟨_, rfl, ?_⟩
  have ha := squeezed_out h1
  have h3 := acc_place u inner_start ha
  unfold SameButBlanks
  rw [show bare .out (Spec.crlf d) = bare .out d from crlf_bare d inner_start (indent_out ws_two h2), indent_bare ws_two h2, bare_append,
    show u.foldl Place.next .out = .out from h3, squeezed_bare h1, bare_bare]
  exact List.append_nil _

/-- Two texts that differ in blanks only are served in the same way; so what was served once is served again as it is. -/
theorem C79_again {t t' : GoStr} {n n' : Nat} (h : IsText n t) (hn : n ≤ 10000) (h' : IsText n' t') (hn' : n' ≤ 10000) (hb : SameButBlanks t t') :
    fromPrettyJSONOf (.own t) = fromPrettyJSONOf (.own t') := by
  obtain ⟨u, hu⟩ := (C79_checked t).2 ⟨n, hn, h⟩
  obtain ⟨u', hu'⟩ := (C79_checked t').2 ⟨n', hn', h'⟩
  have he : u = u' := by
    rw [marshal] at hu hu'
    rw [squeezed_bare hu, squeezed_bare hu']; exact hb
  have : encoder (.own t) = encoder (.own t') := by
    funext b
    rw [encoder, encoder, encode, encode, hu, hu', he]
  rw [fromPrettyJSONOf, fromPrettyJSONOf, this]

theorem fromBytes_inj {a b : GoStr} (h : fromBytes a = fromBytes b) : a = b := by
  unfold fromBytes at h
  cases a with
  | nil =>
    cases b with
    | nil => rfl
    | cons y b => simp [emptyFam] at h
  | cons x a =>
    cases b with
    | nil => simp [emptyFam] at h
    | cons y b => simpa using h

theorem C79_fixpoint {t d : GoStr} (h : fromPrettyJSONOf (.own t) = .ret (fromBytes d)) : fromPrettyJSONOf (.own d) = .ret (fromBytes d) := by
  obtain ⟨n, hn, ht⟩ := (C79_own t).1 ⟨_, h⟩
  obtain ⟨d', m, h1, hm, hd⟩ := C79_served h
  obtain ⟨d'', h2, hb⟩ := C79_blanks h
  cases fromBytes_inj h1
  cases fromBytes_inj h2
  rw [C79_again hd hm ht hn hb, h]

/-- What is served need not be JSON as RFC 8259 has it: a string need not be UTF-8. -/
theorem C79_not_utf8 : ∃ t d, fromPrettyJSONOf (.own t) = .ret (fromBytes d) ∧ ∀ j, ¬ Says d j := by
  refine ⟨[34, 0xff, 34], [34, 0xff, 34, 13, 10], by decide +kernel, ?_⟩
  rintro j ⟨s, h, _⟩
  have hno : ∀ c : Char, (0xff : Byte) ∉ String.utf8EncodeChar c := by
    intro c hc
    have key (n : Nat) (hn : n < 255) : UInt8.ofNat n ≠ 0xff := by
      intro h
      have := congrArg UInt8.toNat h
      rw [UInt8.toNat_ofNat'] at this
      change n % 256 = 255 at this
      omega
    unfold String.utf8EncodeChar at hc
    simp only at hc
    repeat' split at hc
    all_goals
      simp only [List.mem_cons, List.not_mem_nil, or_false] at hc
      repeat' (rcases hc with hc | hc)
      all_goals exact key _ (by omega) hc.symm
  have : (0xff : Byte) ∈ utf8 s := by rw [← h]; simp
  obtain ⟨c, _, hc⟩ := List.mem_flatMap.1 this
  exact hno c hc

/-! ## Examples -/

/-- `{"a" : [ 1,2 ] }`, and what is served for it -/
example : fromPrettyJSONOf (.own (lit "{\"a\" : [ 1,2 ] }")) = .ret (fromBytes (lit "{\r\n  \"a\": [\r\n    1,\r\n    2\r\n  ]\r\n}\r\n")) := by decide +kernel

theorem exText_text : IsText 2 (lit "{\"a\" : [ 1,2 ] }") := by
  have n1 : IsValue 0 [49] := .number ⟨[], [49], [], [], rfl, .inl rfl, .pos (by decide) (by decide) (by intro b hb; cases hb), .no, .no⟩
  have n2 : IsValue 0 [50] := .number ⟨[], [50], [], [], rfl, .inl rfl, .pos (by decide) (by decide) (by intro b hb; cases hb), .no, .no⟩
  have sp : Ws [32] := by intro b hb; simp at hb; simp [hb]
  have no : Ws [] := by intro b hb; cases hb
  have a : IsValue 1 (lit "[ 1,2 ]") := IsValue.array (t := lit " 1,2 ") (IsElements.more (n := 0) (m := 0) sp n1 no (IsElements.one (w := []) (v := [50]) (w' := [32]) no n2 sp))
  have o : IsValue 2 (lit "{\"a\" : [ 1,2 ] }") := IsValue.object (t := lit "\"a\" : [ 1,2 ] ") (IsMembers.one (w := []) (k := [97]) (w1 := [32]) (w2 := [32]) (w' := [32]) no (.plain (by decide) (by decide) (by decide) .nil) sp sp a sp)
  exact ⟨[], _, [], by rfl, no, o, no⟩

/-- Not a text: it panics, also inside of a slice, and in `FromJSON`. -/
example : (∃ e, fromPrettyJSONOf (.own (lit "{\"a\" : [ 1,2, ] }")) = .panic (.error e)) ∧ (∃ e, fromPrettyJSONOf (.arr [.int 1, .own (lit "1 2")]) = .panic (.error e)) ∧
    ∃ e, fromJSONOf (.struct [(lit "A", .own [])]) = .panic (.error e) :=
  ⟨⟨syntaxError, by decide +kernel⟩, ⟨syntaxError, by decide +kernel⟩, ⟨syntaxError, by decide +kernel⟩⟩

example : Within (.own (lit "1 2")) (.arr [.int 1, .own (lit "1 2")]) := .arr (by simp) (.here _)

/-- A text in a struct in a slice: nested four levels in all. -/
def exNested : JVal := .arr [.struct [(lit "A", .own (lit "{\"a\" : [ 1,2 ] }"))], .number (lit "1e-7")]

example : FieldNamed exNested := by
  refine .arr fun v hv => ?_
  simp only [List.mem_cons, List.not_mem_nil, or_false] at hv
  rcases hv with rfl | rfl
  · refine .struct (fun p hp => ?_) fun p hp => ?_
    · simp only [List.mem_cons, List.not_mem_nil, or_false] at hp
      subst hp
      exact ⟨['A'], by decide +kernel, by decide⟩
    · simp only [List.mem_cons, List.not_mem_nil, or_false] at hp
      subst hp
      exact .own _
  · exact .number _

example : fromPrettyJSONOf exNested = .ret (fromBytes (lit "[\r\n  {\r\n    \"A\": {\r\n      \"a\": [\r\n        1,\r\n        2\r\n      ]\r\n    }\r\n  },\r\n  1e-7\r\n]\r\n")) := by
  decide +kernel

example : Fits 4 exNested ∧ ¬ Fits 3 exNested := by
  constructor
  · refine .arr fun v hv => ?_
    simp only [List.mem_cons, List.not_mem_nil, or_false] at hv
    rcases hv with rfl | rfl
    · refine .struct fun p hp => ?_
      simp only [List.mem_cons, List.not_mem_nil, or_false] at hp
      subst hp
      exact .own (Nat.le_refl 2) exText_text
    · exact .number _ ((valid_iff _).1 (by decide +kernel))
  · intro h
    cases h with
    | arr h =>
      cases h _ List.mem_cons_self with
      | struct h =>
        cases h _ List.mem_cons_self with
        | own h1 h2 => have := text_unique h2 exText_text; omega

example : fromJSONOf exNested = .ret (fromBytes []) ∧ ∃ e, fromJSONOf (.arr [.null, .own (lit "[1,]")]) = .panic (.error e) :=
  ⟨by decide +kernel, syntaxError, by decide +kernel⟩

/-- A blank inside of a string stays. -/
example : SameButBlanks (lit "[ \"a \\\" b\" ]") (lit "[\"a \\\" b\"]\n") ∧ ¬ SameButBlanks (lit "[\"a b\"]") (lit "[\"ab\"]") := by
  unfold SameButBlanks; decide +kernel

/-- Half of a surrogate pair is accepted. -/
example : fromPrettyJSONOf (.own (lit "\"\\ud800\"")) = .ret (fromBytes (lit "\"\\ud800\"\r\n")) := by decide +kernel

end Verif
