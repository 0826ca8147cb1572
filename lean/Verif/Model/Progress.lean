import Verif.Model.Run.Process
/-!
# Notifications of a run (`trlc/trlc.py:109-124, 488-548`)
-/
namespace Verif.Model

/-- Calls of the methods for notification, which can be overridden (`trlc/trlc.py:109-116`) -/
inductive Callback
  | begin
  | progress (percent : Nat)
  | finished
  deriving Repr, DecidableEq

/-- `trlc/trlc.py:418-425, 446-450`: the number of calls of `signal_progress` while the given files are parsed.  A
file counts unless parsing it ends with an exception. -/
def signalsOf (parse : OpenFile → P Bool) : List OpenFile → PS → Nat
  | [], _ => 0
  | f :: fs, s => match parse f (s.enter f) with
    | .ok _ s' => signalsOf parse fs s' + 1
    | .err s' => signalsOf parse fs s'
    | .crash _ _ => 0

/-- `trlc/trlc.py:495-520`: the number of calls of `signal_progress` after `build_graph`; see `analyse` for the order
of the steps. -/
def runSignals (o : Options) (X : Outside) (g : STab) (required : Finset PNode) (ls : List Loaded) (ok : Bool)
    (s : PS) : Nat :=
  let n := signalsOf (fun f => parseRslFile f.env X.rx) ((rslFiles required ls).map (·.openFile g o.recover)) s
  match runRsl g o.recover X.rx required ls s with
  | .crash _ _ | .err _ => n
  | .ok b s' =>
    if !o.recover && !(ok && b) then n
    else if (if o.lint && (ok && b) then (X.lint g s').out else some true).isNone then n
    else if !o.parseTrlc then n
    else n + signalsOf (fun f => parseTrlcFile f.env) ((trlcFiles required ls).map (·.openFile g o.recover)) s'

/-- The values passed to `callback_parse_progress` during `process` (`trlc/trlc.py:481-548`); `progress_final` is set at
the end of `build_graph` (374). -/
def percentages (o : Options) (X : Outside) (required : List CU → Finset PNode) (fs : List Source) (s : PS) : List Nat :=
  match loadAll globalTable fs s with
  | .ok (g, ls) s' =>
    let R := required (ls.map (·.cu))
    progressSignals (progressFinal R (ls.map (·.cu)))
      (runSignals o X g R ls (ls.all fun l => !l.cu.err) (s'.withPackages g)) 0
  | _ => []

/-- The notifications during `process` (`trlc/trlc.py:481-548`): `callback_parse_end` is called before each `return`,
but not if there is an internal exception. -/
def callbacks (o : Options) (X : Outside) (required : List CU → Finset PNode) (fs : List Source) (s : PS) :
    List Callback :=
  .begin :: (percentages o X required fs s).map .progress ++
  match (process o X required fs s).out with
  | .crash _ => []
  | _ => [.finished]

end Verif.Model
