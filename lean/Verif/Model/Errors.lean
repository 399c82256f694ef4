import Verif.Model.Text

/-! # Model of `/repo/body/errors.go`, and of the other error texts of package body -/

set_option autoImplicit false

namespace Verif

/-- `Error()`.  `other` gives the texts of the errors made outside this repository. -/
def errorMsg (other : Err → GoStr) : Err → GoStr
  | .unknownWhence w => lit "Seek error: unknown whence value " ++ itoa w                                          -- errors.go:15-17
  | .negStart o => lit "Seek error: whence is io.SeekStart but offset " ++ itoa o ++ lit " is negative"            -- errors.go:29-31
  | .negComputed o => lit "Seek error: computed offset " ++ itoa o ++ lit " is negative"                           -- errors.go:43-45
  | .negReadAt o => lit "ReadAt error: offset " ++ itoa o ++ lit " is negative"                                    -- bytes.go:121, readerat.go:205, seeker.go:205
  | .viaStat e => lit "failed to determine length of body via Stat: " ++ errorMsg other e                        -- body.go:305
  | .viaSeek e => lit "failed to determine length of body via Seek: " ++ errorMsg other e                        -- body.go:316
  | .viaRewind e => lit "failed to rewind to start of file via Seek: " ++ errorMsg other e                       -- body.go:322
  | e => other e

/-- `GoString()`, for the errors that have it. -/
def errorGoString : Err → Option GoStr
  | .unknownWhence w => some (lit "UnknownWhenceSeekError{" ++ itoa w ++ lit "}")                                  -- errors.go:11-13
  | .negStart o => some (lit "NegativeStartOffsetSeekError{" ++ itoa o ++ lit "}")                                 -- errors.go:25-27
  | .negComputed o => some (lit "NegativeComputedOffsetSeekError{" ++ itoa o ++ lit "}")                           -- errors.go:39-41
  | _ => none

end Verif
