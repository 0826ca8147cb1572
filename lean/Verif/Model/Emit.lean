import Verif.Model.CrossRef
import Verif.Model.Location
import Verif.Model.Messages
/-!
# What is printed for a message (`trlc/errors.py:55-75, 106-111, 218-276`)
-/
namespace Verif.Model

/-- A `Location` (`trlc/errors.py:28-53`); for a `Source_Reference` (`trlc/lexer.py:69-86`) also the text of the file
and the offsets of the first and last character -/
structure SrcPlace where
  file   : List Char
  line   : Option Nat
  col    : Option Nat
  source : Option (List Char × Nat × Nat)

/-- `if n: rv += ":%u" % n` (`trlc/errors.py:69-74`) -/
def colonNum : Option Nat → List Char
  | none => []
  | some n => if n = 0 then [] else ':' :: natText n

/-- `trlc/errors.py:55-75` `to_string` -/
def SrcPlace.text (p : SrcPlace) (column : Bool) : List Char :=
  p.file ++ colonNum p.line ++ (if colonNum p.line = [] ∨ column = false then [] else colonNum p.col)

/-- `trlc/errors.py:106-111` `Kind.__str__` -/
def MsgKind.name : MsgKind → List Char
  | .SYS_ERROR => "error".toList
  | .SYS_CHECK => "issue".toList
  | .SYS_WARNING => "warning".toList
  | .USER_ERROR => "check error".toList
  | .USER_WARNING => "check warning".toList

/-- The arguments of `Message_Handler` that concern the output (`trlc/errors.py:172-191`) -/
structure Style where
  brief       : Bool
  details     : Bool
  stripPrefix : Option (List Char)

/-- `trlc/errors.py:232-236` `_loc_str` -/
def Style.locText (o : Style) (p : SrcPlace) (column : Bool) : List Char :=
  let loc := p.text column
  match o.stripPrefix with
  | none => loc
  | some pre => if pre ≠ [] ∧ pre.isPrefixOf loc = true then loc.drop pre.length else loc

/-- `trlc/errors.py:238-252` the text of a message -/
def Style.msgText (o : Style) (p : SrcPlace) (k : MsgKind) (message : List Char) (category : Option (List Char)) : List Char :=
  (if o.brief then o.locText p true ++ ": trlc ".toList else o.locText p p.source.isNone ++ ": ".toList) ++
    (k.name ++ ": ".toList ++ message ++
      (match category with
        | none => []
        | some c => if c = [] then [] else " [".toList ++ c ++ "]".toList))

/-- `s.replace("\t", " ")` (`trlc/errors.py:260-261`) -/
def noTabs (s : List Char) : List Char := s.map fun c => if c = '\t' then ' ' else c

/-- `trlc/errors.py:218-276` the lines printed by `emit` for a message that is not suppressed, i.e. the texts
given to `print`, which ends each with a line break (a text can itself contain line breaks) -/
def Style.printed (o : Style) (p : SrcPlace) (k : MsgKind) (message : List Char) (extra category : Option (List Char)) :
    List (List Char) :=
  let msg := o.msgText p k message category
  let context := if o.brief then none else p.source.map fun s => contextLines s.1 s.2.1 s.2.2
  (match context with
    | some (a, b) => [noTabs a, noTabs b ++ ' ' :: msg]
    | none => [msg]) ++
  (if o.brief = false ∧ o.details = true then
    let indent := match context with
      | some (_, b) => b.length - 1
      | none => 0
    (splitlines (extra.getD [])).map fun l => List.replicate indent ' ' ++ ("| ".toList ++ rstrip l)
   else [])

end Verif.Model
