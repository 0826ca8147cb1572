/-!
# Message handler (`trlc/errors.py:98-388`)

A printed message is recorded as kind, location, text and category; locations are opaque
strings.  What is printed for one message is in `Model/Emit.lean`.
-/
namespace Verif.Model

/-- `trlc/errors.py:98-104` `Kind` -/
inductive MsgKind
  | SYS_ERROR | SYS_CHECK | SYS_WARNING | USER_ERROR | USER_WARNING
  deriving Repr, DecidableEq

/-- What is printed by one call of `emit` (`trlc/errors.py:218-276`) -/
structure Msg where
  kind     : MsgKind
  loc      : String
  text     : String
  category : Option String
  deriving Repr, DecidableEq

/-- `trlc/errors.py:172-191` the counters and policy of `Message_Handler`; `out` is
what has been printed. -/
structure MH where
  warnings     : Nat
  errors       : Nat
  suppressed   : Nat
  suppressKind : List MsgKind
  out          : List Msg
  deriving Repr, DecidableEq

/-- `trlc/errors.py:172-191` initial state -/
def MH.init : MH := { warnings := 0, errors := 0, suppressed := 0, suppressKind := [], out := [] }

/-- `trlc/errors.py:207-209` `suppress` -/
def MH.suppress (mh : MH) (k : MsgKind) : MH := { mh with suppressKind := k :: mh.suppressKind }

/-- `trlc/errors.py:218-276` `emit`; the flag tells whether `TRLC_Error` is raised. -/
def MH.emit (mh : MH) (m : Msg) (fatal : Bool) : MH × Bool :=
  if mh.suppressKind.contains m.kind then ({ mh with suppressed := mh.suppressed + 1 }, fatal)
  else ({ mh with out := mh.out ++ [m] }, fatal)

/-- `trlc/errors.py:278-285` `lex_error` -/
def MH.lexError (mh : MH) (loc text : String) : MH × Bool :=
  { mh with errors := mh.errors + 1 }.emit ⟨.SYS_ERROR, loc, text, none⟩ true

/-- `trlc/errors.py:287-335` `error` -/
def MH.error (mh : MH) (loc text : String) (fatal user : Bool) : MH × Bool :=
  { mh with errors := mh.errors + 1 }.emit
    ⟨if user then .USER_ERROR else .SYS_ERROR, loc, text, none⟩ fatal

/-- `trlc/errors.py:337-362` `warning` -/
def MH.warning (mh : MH) (loc text : String) (user : Bool) : MH × Bool :=
  { mh with warnings := mh.warnings + 1 }.emit
    ⟨if user then .USER_WARNING else .SYS_WARNING, loc, text, none⟩ false

/-- `trlc/errors.py:364-376` `check` -/
def MH.check (mh : MH) (loc text category : String) : MH × Bool :=
  { mh with warnings := mh.warnings + 1 }.emit ⟨.SYS_CHECK, loc, text, some category⟩ false

/-- One call on the message handler (`ice_loc`, which ends the process, is left out).
(`trlc/errors.py:278-376`) -/
inductive MHCall
  | suppress (k : MsgKind)
  | lexError (loc text : String)
  | error (loc text : String) (fatal user : Bool)
  | warning (loc text : String) (user : Bool)
  | check (loc text category : String)
  deriving Repr, DecidableEq

/-- The effect of one call. (`trlc/errors.py:278-376`) -/
def MH.call (mh : MH) : MHCall → MH × Bool
  | .suppress k => (mh.suppress k, false)
  | .lexError l t => mh.lexError l t
  | .error l t f u => mh.error l t f u
  | .warning l t u => mh.warning l t u
  | .check l t c => mh.check l t c

/-- A sequence of calls (the caller catches exceptions): final state and, for each
call, whether it raised.
(`trlc/errors.py:278-376`) -/
def MH.run (mh : MH) : List MHCall → MH × List Bool
  | [] => (mh, [])
  | c :: cs =>
    let (mh1, r) := mh.call c
    let (mh2, rs) := mh1.run cs
    (mh2, r :: rs)

end Verif.Model
