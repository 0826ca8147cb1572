/-!
# Iterating record objects by section (`trlc/ast.py:3424-3461`)
-/
namespace Verif.Model

/-- `trlc/ast.py:3363-3383` `Section`, identified by `id` (Python object identity, there
is no `__eq__`). -/
structure Sect where
  id   : Nat
  name : String
  deriving Repr, DecidableEq

/-- What matters of a record object: identity, file of its location and its stack of
sections, outermost first (`trlc/parser.py:1655-1672`, `1886-1911`). -/
structure SObj where
  id   : Nat
  file : String
  sect : List Sect
  deriving Repr, DecidableEq

/-- An entry of a package's table: a record object or something else. (`trlc/ast.py:3425-3448`) -/
inductive PEntry
  | obj (o : SObj) | other
  deriving Repr, DecidableEq

/-- An entry of the global table: a package with its own table, or something else.
(`trlc/ast.py:3425-3448`) -/
inductive GEntry
  | pkg (entries : List PEntry) | obj (o : SObj) | other
  deriving Repr, DecidableEq

/-- `trlc/ast.py:3450-3461` `iter_record_objects` on a package's table -/
def pkgObjects : List PEntry → List SObj
  | [] => []
  | .obj o :: r => o :: pkgObjects r
  | .other :: r => pkgObjects r

/-- `trlc/ast.py:3450-3461` `iter_record_objects` on the global table.  Simplification:
packages do not nest. -/
def globalObjects : List GEntry → List SObj
  | [] => []
  | .pkg es :: r => pkgObjects es ++ globalObjects r
  | .obj o :: r => o :: globalObjects r
  | .other :: r => globalObjects r

/-- What the iterator yields (`trlc/ast.py:3425-3448`) -/
inductive SItem
  | file (name : String)
  | title (s : Sect) (level : Nat)
  | obj (o : SObj) (level : Nat)
  deriving Repr, DecidableEq

/-- The state kept in the table (`trlc/ast.py:3405-3406`); it survives the iteration. -/
structure SState where
  files : List String
  sects : List Sect
  deriving Repr, DecidableEq

/-- `trlc/ast.py:3441-3444` the loop over the sections of one object -/
def yieldTitles (st : SState) (level : Nat) : List Sect → SState × List SItem
  | [] => (st, [])
  | s :: ss =>
    if st.sects.contains s then yieldTitles st (level + 1) ss
    else
      let (st', r) := yieldTitles { st with sects := st.sects ++ [s] } (level + 1) ss
      (st', .title s level :: r)

/-- `trlc/ast.py:3434-3448` one round of the loop -/
def yieldObject (st : SState) (o : SObj) : SState × List SItem :=
  let (st1, r1) :=
    if st.files.contains o.file then (st, [])
    else ({ st with files := st.files ++ [o.file] }, [SItem.file o.file])
  let (st2, r2) := yieldTitles st1 0 o.sect
  (st2, r1 ++ r2 ++ [.obj o (if o.sect.isEmpty then 0 else o.sect.length - 1)])

/-- `trlc/ast.py:3425-3448` `iter_record_objects_by_section`, run to the end -/
def bySection (st : SState) : List SObj → SState × List SItem
  | [] => (st, [])
  | o :: os =>
    let (st1, r1) := yieldObject st o
    let (st2, r2) := bySection st1 os
    (st2, r1 ++ r2)

end Verif.Model
