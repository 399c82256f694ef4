import Verif.Proofs.JsonMeans
import Verif.Props.Conn
import Verif.Props.Construct

/-!
# C79: a client that reads what `FromPrettyJSON` serves as JSON gets the value
-/

set_option autoImplicit false

namespace Verif
open Spec (crlf)
open Spec.Json Json

theorem two_spaces (d : Int) : crlf (newline (lit "  ") d) = [13, 10] ++ List.replicate (2 * d.toNat) 32 := by
  have h : ∀ n : Nat, (List.replicate n (lit "  ")).flatten = List.replicate (2 * n) 32 := by
    intro n
    induction n with
    | zero => rfl
    | succ n ih =>
      rw [List.replicate_succ, List.flatten_cons, ih, show 2 * (n + 1) = 2 * n + 1 + 1 by omega, List.replicate_succ, List.replicate_succ]
      rfl
  rw [newline, h, ← List.singleton_append, crlf_app, crlf_same (a := List.replicate _ _) fun b hb => by rw [List.eq_of_mem_replicate hb]; decide]
  rfl

theorem crlf_pretty {T : Tree} {j : J} (h : Reads T j) : crlf (pretty (lit "  ") 0 T ++ [10]) = indented T := by
  rw [crlf_app, pretty, crlf_lay _ (by decide) T j h, indented]
  congr 2
  funext d
  exact two_spaces d

theorem fromPretty_tree {e : Enc} (h : e.Ok) :
    fromPrettyJSONOf e.v = if depth e.v ≤ 10000 then .ret (fromBytes (indented e.T)) else .panic (.error syntaxError) := by
  have he : encoder e.v true = if e.T.nest ≤ maxNesting then .ok (pretty (lit "  ") 0 e.T ++ [10]) else .error syntaxError := by
    rw [encoder, if_pos rfl, encode, h.marshal]
    simp only []
    rw [if_neg (by decide), ← h.text 0, indent_tree _ h.reads]
  rw [h.nest, maxNesting] at he
  unfold fromPrettyJSONOf
  by_cases hd : depth e.v ≤ 10000
  · rw [if_pos hd] at he ⊢
    rw [fromPrettyJSON, fromJSONImpl, he]
    simp only [if_true]
    rw [crlf_foldl, List.nil_append, crlf_pretty h.reads]
  · rw [if_neg hd] at he ⊢
    exact C25_encoder_error _ _ he

theorem blank_replicate (n : Nat) : Blank (List.replicate n ' ') := by
  intro c hc
  rw [List.eq_of_mem_replicate hc]
  decide

theorem utf8_spaces (n : Nat) : utf8 (List.replicate n ' ') = List.replicate n 32 := by
  induction n with
  | zero => rfl
  | succ n ih => rw [List.replicate_succ, utf8_cons, ih, List.replicate_succ]; rfl

theorem indented_says {T : Tree} {j : J} (h : Reads T j) : Says (indented T) j := by
  have H : Lays (fun d => [13, 10] ++ List.replicate (2 * d.toNat) 32) [32] (fun d => ['\r', '\n'] ++ List.replicate (2 * d.toNat) ' ') [' '] := by
    refine ⟨fun d => ?_, by decide +kernel, fun d c hc => ?_, by unfold Blank; decide⟩
    · rw [utf8_append, utf8_spaces, show utf8 ['\r', '\n'] = [13, 10] by decide +kernel]
    · rcases List.mem_append.1 hc with hc | hc
      · exact (by decide : ∀ c ∈ ['\r', '\n'], Spec.Json.isSpace c = true) c hc
      · exact blank_replicate _ c hc
  obtain ⟨s, h1, -, h2⟩ := read_tree H T j h 0
  have hb : Blank ['\r', '\n'] := by unfold Blank; decide
  refine ⟨s ++ ['\r', '\n'], by rw [indented, h1, utf8_append, show utf8 ['\r', '\n'] = [13, 10] by decide +kernel], ?_⟩
  have := h2 ['\r', '\n'] (ends_blank (s := []) hb ends_nil) ((s ++ ['\r', '\n']).length + 1) (by simp only [List.length_append]; omega)
  rw [parse, this, Option.bind_some, if_pos]
  exact skip_blank (s := []) hb

theorem oneLine_says {T : Tree} {j : J} (h : Reads T j) : Says (oneLine T ++ [10]) j := by
  have H : Lays (fun _ => []) [] (fun _ => []) [] := ⟨fun _ => rfl, rfl, fun _ c hc => (by cases hc), fun c hc => (by cases hc)⟩
  obtain ⟨s, h1, -, h2⟩ := read_tree H T j h 0
  have hb : Blank ['\n'] := by unfold Blank; decide
  refine ⟨s ++ ['\n'], by rw [oneLine, h1, utf8_append, show utf8 ['\n'] = [10] by decide +kernel], ?_⟩
  have := h2 ['\n'] (ends_blank (s := []) hb ends_nil) ((s ++ ['\n']).length + 1) (by simp only [List.length_append]; omega)
  rw [parse, this, Option.bind_some, if_pos]
  exact skip_blank (s := []) hb

/-- What bytes mean as JSON, if anything, is determined. -/
theorem C79_unique {d : GoStr} {j j' : J} (h : Says d j) (h' : Says d j') : j = j' := by
  obtain ⟨s, h1, h2⟩ := h
  obtain ⟨s', h3, h4⟩ := h'
  have := utf8_inj (h1.symm.trans h3)
  subst this
  rw [h2] at h4
  exact Option.some.inj h4

/-- **C79.**  `FromPrettyJSON` serves bytes that mean, as JSON, what the value means, and nothing else. -/
theorem C79_means {v : JVal} (hw : WellNamed v) (hk : Keyed v) {j : J} (hj : Means v j) (hd : depth v ≤ 10000) :
    ∃ raw, fromPrettyJSONOf v = .ret (fromBytes raw) ∧ (raw.length < 2 ^ 63 → Serves raw (fromPrettyJSONOf v)) ∧ ∀ j', Says raw j' ↔ j' = j := by
  obtain ⟨e, h1, rfl⟩ := marshal_text v hw (means_marshal hj (Nat.le_trans (rawDepth_le v) hd))
  have hr := fromPretty_tree h1
  rw [if_pos hd] at hr
  have hs := indented_says h1.reads
  rw [means_unique hk h1.means hj] at hs
  exact ⟨_, hr, fun hl => by rw [hr]; exact serves_fromBytes _ hl, fun j' => ⟨fun h => C79_unique h hs, fun h => h ▸ hs⟩⟩

/-- The layout: `json.Marshal` writes all on one line, and `FromPrettyJSON` serves the same indented by two spaces for each level, with CRLF line ends.  Elements and members
stand on lines of their own. -/
theorem C79_layout {v : JVal} (hw : WellNamed v) {j : J} (hj : Means v j) (hd : depth v ≤ 10000) :
    ∃ T, Shape v T ∧ marshal v = .ok (oneLine T) ∧ fromPrettyJSONOf v = .ret (fromBytes (indented T)) := by
  obtain ⟨e, h1, rfl⟩ := marshal_text v hw (means_marshal hj (Nat.le_trans (rawDepth_le v) hd))
  have hr := fromPretty_tree h1
  rw [if_pos hd] at hr
  exact ⟨e.T, h1.shape, by rw [h1.marshal, ← h1.text 0]; rfl, hr⟩

/-- It panics exactly if the value has no meaning in JSON, or if it is nested deeper than 10000 levels. -/
theorem C79_panics {v : JVal} (hw : WellNamed v) : (∃ e, fromPrettyJSONOf v = .panic (.error e)) ↔ (¬ ∃ j, Means v j) ∨ 10000 < depth v := by
  by_cases hj : ∃ t, marshal v = .ok t
  · have hm := ((marshal_iff_means hw).1 hj).1
    obtain ⟨e, h1, rfl⟩ := marshal_text v hw hj
    rw [fromPretty_tree h1]
    constructor
    · rintro ⟨x, hx⟩
      refine .inr ?_
      split at hx
      · cases hx
      · omega
    · rintro (h | h)
      · exact absurd hm h
      · exact ⟨syntaxError, by rw [if_neg (by omega)]⟩
  · constructor
    · intro _
      by_cases hm : ∃ j, Means v j
      · refine .inr (Nat.lt_of_not_le fun hd => hj ((marshal_iff_means hw).2 ⟨hm, Nat.le_trans (rawDepth_le v) hd⟩))
      · exact .inl hm
    · intro _
      cases hm : marshal v with
      | ok t => exact absurd ⟨t, hm⟩ hj
      | error e => exact ⟨e, C25_encoder_error _ _ (by rw [encoder, encode, hm])⟩

/-- The order in which maps yield their keys does not matter. -/
theorem C79_order {v w : JVal} (h : Reordered v w) : fromPrettyJSONOf v = fromPrettyJSONOf w ∧ fromJSONOf v = fromJSONOf w := by
  have he : encoder v = encoder w := by
    funext b
    rw [encoder, encoder, encode, encode, reordered_same h]
  rw [fromPrettyJSONOf, fromPrettyJSONOf, fromJSONOf, fromJSONOf, he]
  exact ⟨rfl, rfl⟩

/-- `FromJSON` has a text that means the value before it, but serves no bytes, which mean nothing (see C24). -/
theorem C79_plain {v : JVal} (hw : WellNamed v) (hk : Keyed v) {j : J} (hj : Means v j) (hd : rawDepth v ≤ 10000) :
    (∃ raw, encoder v false = .ok raw ∧ Says raw j) ∧ fromJSONOf v = .ret (fromBytes []) ∧ ∀ j', ¬ Says [] j' := by
  obtain ⟨e, h1, rfl⟩ := marshal_text v hw (means_marshal hj hd)
  have he : encoder e.v false = .ok (oneLine e.T ++ [10]) := by
    rw [encoder, if_neg (by simp), encode, h1.marshal]
    simp only [if_true]
    rw [← h1.text 0]
    rfl
  refine ⟨⟨_, he, means_unique hk h1.means hj ▸ oneLine_says h1.reads⟩, ?_, ?_⟩
  · unfold fromJSONOf
    simp [fromJSON, fromJSONImpl, he, goCopy]
  · rintro j' ⟨s, h2, h3⟩
    cases s with
    | nil => cases h3
    | cons c s =>
      rw [utf8_cons, utf8_char] at h2
      exact absurd (List.append_eq_nil_iff.1 h2.symm).1 (encodeRune_ne_nil _)

theorem indented_ne_nil (T : Tree) : indented T ≠ [] := by
  intro h
  have := (List.append_eq_nil_iff.1 h).2
  cases this

/-- Over HTTP/1.1: the client of a handler that answers with such a Body gets a whole message, whose body means what the value means. -/
theorem C79_client {v : JVal} (hw : WellNamed v) (hk : Keyed v) {j : J} (hj : Means v j) (hd : depth v ≤ 10000) :
    ∃ raw, fromPrettyJSONOf v = .ret (fromBytes raw) ∧
      ∀ (code : Int) (hdrs : List (GoStr × List GoStr)) (err : Option Err) (http1 raises : Bool) (n fuel : Nat) (assertErr : Bool) (onPanic : PanicArg → Res Unit),
        raw.length < 2 ^ 63 → raw.length < n → raw.length < fuel → code ≠ 204 → code ≠ 304 → (∀ k, declaredLength hdrs = some k → k = raw.length) →
        Spec.Wire.Sendable ({ code, hdrs, body := fromBytes raw, err } : Resp MemFam) →
        ∀ (c : Wire.Choices) (strict : Bool),
          let w := (overNet http1 n raises false (BodyOps.ofFam MemFam.step true 0) fuel assertErr onPanic (.resp { code, hdrs, body := fromBytes raw, err })).1
          Spec.Wire.Sound c w → ∃ m, Spec.Wire.receive strict false (Wire.wire c w) = some (m, []) ∧ (m.status : Int) = code ∧ ∀ j', Says m.body j' ↔ j' = j := by
  obtain ⟨e, h1, rfl⟩ := marshal_text v hw (means_marshal hj (Nat.le_trans (rawDepth_le v) hd))
  have hr := fromPretty_tree h1
  rw [if_pos hd] at hr
  have hs := indented_says h1.reads
  rw [means_unique hk h1.means hj] at hs
  refine ⟨_, hr, ?_⟩
  intro code hdrs err http1 raises n fuel assertErr onPanic hlen hn hf h204 h304 hdecl hsend c strict w hc
  have hi := (C64_bytes hlen (indented_ne_nil e.T) http1 n hn raises false fuel hf assertErr onPanic code hsend.final hsend.three hdrs hsend.once err).2
    (.inr (.inr (.inr ⟨h304, hdecl⟩)))
  have hwhole := C77_whole (BodyOps.ofFam MemFam.step true 0) http1 n raises false fuel assertErr onPanic (h := .resp { code, hdrs, body := fromBytes (indented e.T), err }) hsend hc strict
  obtain ⟨m, rest, hm⟩ := hwhole.1.2 hi.framed
  obtain ⟨hsays, rfl⟩ := hwhole.2 m rest hm
  refine ⟨m, hm, hsays.status.trans hi.status, fun j' => ?_⟩
  have hb : m.body = indented e.T := by
    rw [hsays.body]
    exact hi.body.trans (if_neg (by simp [h204]))
  rw [hb]
  exact ⟨fun h => C79_unique h hs, fun h => h ▸ hs⟩

/-! ## Examples -/

/-- `map[string]interface{}{"n": []int{1, -2}, "e": "<é\n\xff"}` -/
def exVal : JVal := .map [(lit "n", .arr [.int 1, .int (-2)]), (lit "e", .str (lit "<" ++ [0xC3, 0xA9, 10, 0xff]))]

example : fromPrettyJSONOf exVal = .ret (fromBytes (lit "{\r\n  \"e\": \"<" ++ [0xC3, 0xA9] ++ lit "\\n\\ufffd\",\r\n  \"n\": [\r\n    1,\r\n    -2\r\n  ]\r\n}\r\n")) := by decide +kernel

example : WellNamed exVal ∧ Keyed exVal ∧ depth exVal = 2 := by
  refine ⟨.map ?_, .map (by decide +kernel) ?_, by simp [exVal, depth, depthMems, depthAll]⟩
  · intro p hp
    simp only [List.mem_cons, List.not_mem_nil, or_false] at hp
    rcases hp with rfl | rfl
    · refine .arr fun v hv => ?_
      simp only [List.mem_cons, List.not_mem_nil, or_false] at hv
      rcases hv with rfl | rfl <;> exact .int _
    · exact .str _
  · intro p hp
    simp only [List.mem_cons, List.not_mem_nil, or_false] at hp
    rcases hp with rfl | rfl
    · refine .arr fun v hv => ?_
      simp only [List.mem_cons, List.not_mem_nil, or_false] at hv
      rcases hv with rfl | rfl <;> exact .int _
    · exact .str _

example : ∃ j, Means exVal j := by
  obtain ⟨q, cs, h, -, -⟩ := string_text (lit "<" ++ [0xC3, 0xA9, 10, 0xff])
  obtain ⟨_, k1, h1, -, -⟩ := string_text (lit "e")
  obtain ⟨_, k2, h2, -, -⟩ := string_text (lit "n")
  exact ⟨_, .map (.swap _ _ _) (by decide +kernel) (.structCons h1 (.str h) (.structCons h2 (.arrCons (.int 1) (.arrCons (.int (-2)) .arrNil)) .structNil))⟩

/-- It is delivered whole, in chunks. -/
def exRaw : GoStr := lit "{\r\n  \"e\": \"<" ++ [0xC3, 0xA9] ++ lit "\\n\\ufffd\",\r\n  \"n\": [\r\n    1,\r\n    -2\r\n  ]\r\n}\r\n"

def exJson : Resp MemFam := { code := 200, hdrs := [(lit "Content-Type", [lit "application/json"])], body := fromBytes exRaw, err := none }

example : fromPrettyJSONOf exVal = .ret (fromBytes exRaw) ∧ Spec.Wire.Sendable exJson ∧
    let w := (overNet true 100 false false (BodyOps.ofFam MemFam.step true 0) 100 false (fun _ => .ret ()) (.resp exJson)).1
    Spec.Wire.Sound (WireP.plain false w) w :=
  ⟨by decide +kernel, ⟨by decide, by decide, by decide, by unfold Spec.Wire.NoFraming; decide +kernel,
    lengthOk_none (by decide +kernel) (by decide +kernel)⟩, WireP.plain_sound _ _⟩

mutual

/-- Whether two values are the same, for examples. -/
def sameJ : J → J → Bool
  | .null, .null => true
  | .bool b, .bool b' => b == b'
  | .num m e, .num m' e' => m == m' && e == e'
  | .str s, .str s' => s == s'
  | .arr l, .arr l' => sameJs l l'
  | .obj l, .obj l' => sameJms l l'
  | _, _ => false

def sameJs : List J → List J → Bool
  | [], [] => true
  | j :: l, j' :: l' => sameJ j j' && sameJs l l'
  | _, _ => false

def sameJms : List (List Char × J) → List (List Char × J) → Bool
  | [], [] => true
  | (k, j) :: l, (k', j') :: l' => k == k' && sameJ j j' && sameJms l l'
  | _, _ => false

end

mutual

theorem sameJ_eq : ∀ {j j' : J}, sameJ j j' = true → j = j'
  | .null, .null, _ => rfl
  | .bool _, .bool _, h => by simp only [sameJ, beq_iff_eq] at h; rw [h]
  | .num _ _, .num _ _, h => by simp only [sameJ, Bool.and_eq_true, beq_iff_eq] at h; rw [h.1, h.2]
  | .str _, .str _, h => by simp only [sameJ, beq_iff_eq] at h; rw [h]
  | .arr _, .arr _, h => by rw [sameJ] at h; rw [sameJs_eq h]
  | .obj _, .obj _, h => by rw [sameJ] at h; rw [sameJms_eq h]

theorem sameJs_eq : ∀ {l l' : List J}, sameJs l l' = true → l = l'
  | [], [], _ => rfl
  | j :: l, j' :: l', h => by
    simp only [sameJs, Bool.and_eq_true] at h
    rw [sameJ_eq h.1, sameJs_eq h.2]

theorem sameJms_eq : ∀ {l l' : List (List Char × J)}, sameJms l l' = true → l = l'
  | [], [], _ => rfl
  | (k, j) :: l, (k', j') :: l', h => by
    simp only [sameJms, Bool.and_eq_true, beq_iff_eq] at h
    rw [h.1.1, sameJ_eq h.1.2, sameJms_eq h.2]

end

def exText : List Char := [' ', '{', '"', 'a', '"', ' ', ':', ' ', '[', '1', ' ', ',', ' ', '2', 'e', '1', ' ', ']', ',', ' ', '"', '\\', 'u', '0', '0', 'e', '9', '"', ' ', ':', ' ', '"', '\\', 'u', 'd', '8', '3', 'd', '\\', 'u', 'd', 'e', '0', '0', '"', '}', ' ']

/-- `[]interface{}{json.RawMessage(` {"a" : [1 , 2e1 ], "\\u00e9" : "\\ud83d\\ude00"} `), nil}` -/
def exSelf : JVal := .arr [.raw exText, .null]

def exSelfJ : J := .obj [(['a'], .arr [.num 1 0, .num 2 1]), (['é'], .str ['😀'])]

example : fromPrettyJSONOf exSelf = .ret (fromBytes (lit "[\r\n  {\r\n    \"a\": [\r\n      1,\r\n      2e1\r\n    ],\r\n    \"\\u00e9\": \"\\ud83d\\ude00\"\r\n  },\r\n  null\r\n]\r\n")) := by decide +kernel

example : WellNamed exSelf ∧ Keyed exSelf ∧ Means exSelf (.arr [exSelfJ, .null]) ∧ depth exSelf = 3 ∧ rawDepth exSelf = 2 := by
  have hp : parse exText = some exSelfJ := by
    have h : ((parse exText).map (sameJ · exSelfJ)) = some true := by decide +kernel
    obtain ⟨j, hj, hs⟩ := Option.map_eq_some_iff.1 h
    rw [hj, sameJ_eq hs]
  refine ⟨.arr fun v hv => ?_, .arr fun v hv => ?_, .arrCons (.raw hp) (.arrCons .null .arrNil), ?_, ?_⟩
  · simp only [List.mem_cons, List.not_mem_nil, or_false] at hv
    rcases hv with rfl | rfl
    · exact .raw hp
    · exact .null
  · simp only [List.mem_cons, List.not_mem_nil, or_false] at hv
    rcases hv with rfl | rfl
    · exact .raw _
    · exact .null
  · rw [exSelf, depth, depthAll, depthAll, depthAll, depth, textNest, hp]
    decide +kernel
  · rw [exSelf, rawDepth, rawDepthAll, rawDepthAll, rawDepthAll, rawDepth, textNest, hp]
    decide +kernel

/-- A channel somewhere inside. -/
example : ¬ ∃ j, Means (.arr [.null, .bad (.ext 3)]) j := by
  rintro ⟨_, h⟩
  cases h with | arrCons _ h => cases h with | arrCons h _ => cases h

/-- `json.Number("1e")`. -/
example : ∃ e, fromPrettyJSONOf (.number (lit "1e")) = .panic (.error e) := ⟨badNumber, by decide +kernel⟩

/-- What is nested too deep. -/
def deepVal : Nat → JVal
  | 0 => .null
  | n + 1 => .arr [deepVal n]

theorem deepVal_named (n : Nat) : WellNamed (deepVal n) := by
  induction n with
  | zero => exact .null
  | succ n ih =>
    refine .arr fun v hv => ?_
    simp only [List.mem_cons, List.not_mem_nil, or_false] at hv
    exact hv ▸ ih

theorem deepVal_depth (n : Nat) : depth (deepVal n) = n := by
  induction n with
  | zero => simp [deepVal, depth]
  | succ n ih => simp [deepVal, depth, depthAll, ih]

theorem deepVal_raw (n : Nat) : rawDepth (deepVal n) = 0 := by
  induction n with
  | zero => simp [deepVal, rawDepth]
  | succ n ih => simp [deepVal, rawDepth, rawDepthAll, ih]

theorem deepVal_means (n : Nat) : ∃ j, Means (deepVal n) j := by
  induction n with
  | zero => exact ⟨_, .null⟩
  | succ n ih => obtain ⟨j, h⟩ := ih; exact ⟨_, .arrCons h .arrNil⟩

/-- A value that can be encoded, but makes `FromPrettyJSON` panic, though not `FromJSON`. -/
theorem C79_deep : (∃ j, Means (deepVal 10001) j) ∧ (∃ e, fromPrettyJSONOf (deepVal 10001) = .panic (.error e)) ∧ ∃ t, fromJSONOf (deepVal 10001) = .ret t :=
  ⟨deepVal_means _, (C79_panics (deepVal_named _)).2 (.inr (by rw [deepVal_depth]; omega)), by
    obtain ⟨t, ht⟩ := means_marshal (deepVal_means 10001).choose_spec (by rw [deepVal_raw]; omega)
    exact ⟨_, by rw [fromJSONOf, fromJSON, fromJSONImpl, encoder, encode, ht]; rfl⟩⟩

end Verif
