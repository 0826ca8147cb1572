import Verif.Props.RearrangeSamples
/-!
# Small projects, given by their tokens

The projects of the examples for C94 and C95.
-/
namespace Verif.Props
open Verif.Model Verif.Spec Verif.Lemmas

namespace TokenSample

/-! ### Tokens, without their places in the text -/

def kw (s : String) : Token := ⟨.KEYWORD, .str s.toList, 0, 0, 0, 0⟩
def idn (s : String) : Token := ⟨.IDENTIFIER, .str s.toList, 0, 0, 0, 0⟩
def op (s : String) : Token := ⟨.OPERATOR, .str s.toList, 0, 0, 0, 0⟩
def str (s : String) : Token := ⟨.STRING, .str s.toList, 0, 0, 0, 0⟩
def num (n : Nat) : Token := ⟨.INTEGER, .int n, 0, 0, 0, 0⟩
def pun (k : Kind) : Token := ⟨k, .none, 0, 0, 0, 0⟩

/-- a file with these tokens -/
def file (n : String) (k : FKind) (ts : List Token) : Source := ⟨⟨n, k, true, []⟩, none, ts.head?, ts.tail.map .tok ++ [.eof]⟩

def start : PS := PS.fresh []

/-- `package P` -/
def pkg : List Token := [kw "package", idn "P"]

/-- `type B { n optional Integer m Integer r optional B }` -/
def typeB : List Token := [kw "type", idn "B", pun .C_BRA, idn "n", kw "optional", idn "Integer", idn "m", idn "Integer", idn "r", kw "optional", idn "B", pun .C_KET]

/-- `checks B { (if n == null then m > 0 else n in 0 .. m), error "m" }` -/
def checksB : List Token := [kw "checks", idn "B", pun .C_BRA, pun .BRA, kw "if", idn "n", op "==", kw "null", kw "then", idn "m", op ">", num 0, kw "else", idn "n", kw "in", num 0, pun .RANGE, idn "m", pun .KET, pun .COMMA, kw "error", str "m", pun .C_KET]

/-- `type S extends B { freeze n = 1 }` -/
def typeS : List Token := [kw "type", idn "S", kw "extends", idn "B", pun .C_BRA, kw "freeze", idn "n", pun .ASSIGN, num 1, pun .C_KET]

/-- `checks S { m * 2 != n, warning "n", n m < 9, "o" }` -/
def checksS : List Token := [kw "checks", idn "S", pun .C_BRA, idn "m", op "*", num 2, op "!=", idn "n", pun .COMMA, kw "warning", str "n", pun .COMMA, idn "n", idn "m", op "<", num 9, pun .COMMA, str "o", pun .C_KET]

/-- `S x { m = 2 r = y }` -/
def objX : List Token := [idn "S", idn "x", pun .C_BRA, idn "m", pun .ASSIGN, num 2, idn "r", pun .ASSIGN, idn "y", pun .C_KET]

/-- `section "s" { B z { m = 1 } }` -/
def objZ : List Token := [kw "section", str "s", pun .C_BRA, idn "B", idn "z", pun .C_BRA, idn "m", pun .ASSIGN, num 1, pun .C_KET, pun .C_KET]

/-- `section "s" { }` -/
def noZ : List Token := [kw "section", str "s", pun .C_BRA, pun .C_KET]

/-- `B y { m = 3 }` -/
def objY : List Token := [idn "B", idn "y", pun .C_BRA, idn "m", pun .ASSIGN, num 3, pun .C_KET]

/-- `B w { m = 4 r = x }` -/
def objW : List Token := [idn "B", idn "w", pun .C_BRA, idn "m", pun .ASSIGN, num 4, idn "r", pun .ASSIGN, idn "x", pun .C_KET]

def rsl : Source := file "p.rsl" .rsl (pkg ++ (typeB ++ (checksB ++ (typeS ++ checksS))))

/-- without the checks of `B` -/
def rsl' : Source := file "p.rsl" .rsl (pkg ++ (typeB ++ (typeS ++ checksS)))

def a : Source := file "a.trlc" .trlc (pkg ++ (objX ++ (objZ ++ objY)))

/-- without the object `z`, to which no other refers -/
def noZ' : Source := file "a.trlc" .trlc (pkg ++ (objX ++ (noZ ++ objY)))

/-- without the object `y`, to which `x` refers -/
def noY : Source := file "a.trlc" .trlc (pkg ++ (objX ++ objZ))

def b : Source := file "b.trlc" .trlc (pkg ++ objW)

def project : List Source := [rsl, a, b]

end TokenSample
end Verif.Props
