import Verif.Model.IoCopy

/-! # Model of `/repo/response/response.go` -/

set_option autoImplicit false

namespace Verif

/-- `/repo/response/response.go:14-20`.  The header map is the list of its entries (with distinct keys) in the order in which
`range` happens to yield them. -/
structure Resp (β : Type) where
  code : Int
  hdrs : List (GoStr × List GoStr)
  body : β
  err : Option Err := none

/-- `/repo/response/response.go:12`. -/
def headerPush : GoStr := lit "Push"

/-- `m[k]`: the values under a key, none if it is absent. -/
def hdrGet (m : List (GoStr × List GoStr)) (k : GoStr) : List GoStr :=
  match m.find? (fun e => e.1 = k) with
  | some e => e.2
  | none => []

variable {β ω : Type}

/-- The loop over the Push header (`/repo/response/response.go:80-85`); `some`: return (or panic) here. -/
def pushAll (D : RW ω) : List GoStr → ω → ω × Option (Res (Option Err))
  | [], w => (w, none)
  | url :: urls, w =>
    match D.push w url with
    | (w, .ret none) => pushAll D urls w
    | (w, .ret (some e)) => if e ≠ .notSupported then (w, some (.ret (some e))) else pushAll D urls w
    | (w, .panic p) => (w, some (.panic p))
    | (w, .hang) => (w, some .hang)

/-- The loop over the headers (`/repo/response/response.go:88-93`). -/
def setAll (D : RW ω) (hdrs : List (GoStr × List GoStr)) (w : ω) : ω :=
  hdrs.foldl (fun w e => if e.1 ≠ headerPush then D.setHeader w e.1 e.2 else w) w

/-- `Response.Serve` (`/repo/response/response.go:77-105`): the Body and the ResponseWriter afterwards, and the outcome. -/
def serve (D : RW ω) (B : BodyOps β) (fuel : Nat) (r : Resp β) (w : ω) : β × ω × Res (Option Err) :=
  let p := if D.isPusher then pushAll D (hdrGet r.hdrs headerPush) w else (w, none)    -- :78-86
  match p.2 with
  | some o => (r.body, p.1, o)
  | none =>
    let w := setAll D r.hdrs p.1                                                       -- :88-93
    match D.writeHeader w r.code with                                                  -- :95
    | (w, .panic p) => (r.body, w, .panic p)
    | (w, .hang) => (r.body, w, .hang)
    | (w, .ret ()) =>
      match ioCopy D B fuel r.body w with                                              -- :97
      | (b, w, .panic p) => (b, w, .panic p)
      | (b, w, .hang) => (b, w, .hang)
      | (b, w, .ret (_, err)) =>
        match B.close b with                                                           -- :99
        | (b, .panic p) => (b, w, .panic p)
        | (b, .hang) => (b, w, .hang)
        | (b, .ret err2) => (b, w, .ret (if err = none then err2 else err))            -- :100-104

end Verif
