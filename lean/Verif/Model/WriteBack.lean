import Verif.Model.ConcMem
import Verif.Model.CallBack

/-!
# Writers that use the Body they are written by

`WriteTo` of `/repo/body/bytes.go:144-165` calls the Writer's `Write` with `body.mu` held.  Nothing stops `Write` from calling methods of Bodies: of this one, or of its
copies (`Response.String` calls `BytesRemaining`, for one).

Here `Write` is a sequence of calls, each of which depends on what those before have returned (a panic is recovered, and counts as a result), and an answer, which depends
on that too; all depends on the Body, on the Writer (named by a function `w`, its answer if it makes no calls) and on the data.  A call of `WriteTo` among the calls has a
Writer that may make calls itself, and so on up to a depth `n`.

Simplifications: a Writer does not remember earlier calls of `Write`, and it starts no goroutines.
-/

set_option autoImplicit false

namespace Verif
variable {Γ : Sig}

/-- What a Writer does when it is given data: it makes a call and goes on depending on the result, or answers. -/
inductive WriterDoes where
  | answer (r : XResp (Int × Option Err))
  | call (op : Op) (next : Out → WriterDoes)

/-- What Writers do: by the Body that calls them, the Writer, and the data. -/
abbrev WriterCalls := Nat → WriteFn → List Byte → WriterDoes

/-- `Write`, and then what follows. -/
def Prog.after (prog : Op → Prog Γ) : WriterDoes → (XResp (Int × Option Err) → Prog Γ) → Prog Γ
  | .answer r, k => k r
  | .call op next, k => (prog op).bind fun o => Prog.after prog (next o) k

namespace ConcBytes

/-- After `Write`, in `WriteTo` (`/repo/body/bytes.go:159-164`). -/
def written (h : Nat) (i j : Int) (d : List Byte) (r : XResp (Int × Option Err)) : P :=
  match r with
  | .panics p => quit h (.panic p)
  | .ok (n, err) =>
    if ¬ n ≥ 0 then quit h (.panic .badWriter)
    else if ¬ n ≤ j - i then quit h (.panic .badWriter)
    else
      .get (.b h .offset) fun (i : Int) =>
      .put (.b h .offset) (i + n : Int) <|
      .put (.b h .eof) true <|
      quit h (.wrote (some d) n err)

/-- `WriteTo` (`/repo/body/bytes.go:144-165`), with a Writer that makes calls. -/
def writeToBy (prog : Op → P) (calls : WriterCalls) (h : Nat) (w : WriteFn) : P :=
  .lock (.body h) <|
  .get (.b h .closed) fun closed =>
  if closed then quit h (.wrote none 0 (some .closed))
  else
    .get (.b h .eof) fun eof =>
    if eof then quit h (.wrote none 0 none)
    else
      .get (.b h .offset) fun (i : Int) =>
      .get (.b h .data) fun (data : List Byte) =>
      match goSlice data i data.length with
      | none => quit h (.panic .bounds)
      | some d => Prog.after prog (calls h w d) (written h i data.length d)

/-- The methods of `bytesBody`, with Writers that make calls, to a depth. -/
def backProg (calls : WriterCalls) : Nat → Op → P
  | 0, op => prog op
  | n + 1, .writeTo h w => writeToBy (backProg calls n) calls h w
  | _ + 1, op => prog op

end ConcBytes
end Verif
