import Verif.Lemmas.Vcg.ScriptG
/-! Finding out whether terms and statements are well formed, for concrete cases. -/
namespace Verif.Lemmas.Vcg
open Verif.Model Verif.Spec Verif.Lemmas

/-- the result of a unary operator -/
def unSort? : SUn → Srt → Option Srt
  | .not, .bool => some .bool
  | .negInt, .int => some .int
  | .negReal, .real => some .real
  | .absInt, .int => some .int
  | .absReal, .real => some .real
  | .strLen, .str => some .int
  | .seqLen, .seq _ => some .int
  | .toReal, .int => some .real
  | .toInt, .real => some .int
  | _, _ => none

/-- the result of a binary operator -/
def binSort? : SBin → Srt → Srt → Option Srt
  | .and, s, t | .or, s, t | .imp, s, t | .xor, s, t => if s = .bool ∧ t = .bool then some .bool else none
  | .eq, s, t => if s = t then some .bool else none
  | .lt, s, t | .leq, s, t | .gt, s, t | .geq, s, t => if s = t ∧ (s = .int ∨ s = .real) then some .bool else none
  | .addInt, s, t | .subInt, s, t | .mulInt, s, t | .floorDiv, s, t | .adaRem, s, t => if s = .int ∧ t = .int then some .int else none
  | .addReal, s, t | .subReal, s, t | .mulReal, s, t | .divReal, s, t => if s = .real ∧ t = .real then some .real else none
  | .concat, s, t => if s = .str ∧ t = .str then some .str else none
  | .contains, s, t | .prefixOf, s, t | .suffixOf, s, t => if s = .str ∧ t = .str then some .bool else none
  | .seqContains, s, t => if s = .seq t then some .bool else none

/-- the sort of a term -/
def sortOf (D : Decls) (K : Sym → Option Srt) : List Nat → Smt → Option Srt
  | _, .bool _ => some .bool
  | _, .int _ => some .int
  | _, .real _ => some .real
  | _, .str _ => some .str
  | _, .enum t l => if l ∈ (D.enums[t]?).getD [] then some (.enum t) else none
  | _, .sym s => K s
  | bs, .idx n => if n ∈ bs then some .int else none
  | bs, .un op a => (sortOf D K bs a).bind (unSort? op)
  | bs, .bin op a b => (sortOf D K bs a).bind fun s => (sortOf D K bs b).bind fun t => binSort? op s t
  | bs, .ite c a b =>
    if sortOf D K bs c = some .bool ∧ sortOf D K bs a = sortOf D K bs b then sortOf D K bs a else none
  | bs, .nth e a i => if sortOf D K bs a = some (.seq e) ∧ sortOf D K bs i = some .int then some e else none
  | bs, .all n a => if sortOf D K (n :: bs) a = some .bool then some .bool else none
  | bs, .ex n a => if sortOf D K (n :: bs) a = some .bool then some .bool else none
  | bs, .field (.deref r a) k => if sortOf D K bs a = some .int then refKey D r k else none
  | bs, .field a k =>
    match sortOf D K bs a with
    | some (.tup t) => tupleKey D t k
    | _ => none
  | _, .deref _ _ => none
  | bs, .matches a b => if sortOf D K bs a = some .str ∧ sortOf D K bs b = some .str then some .bool else none

theorem unSort?_of {op : SUn} {s t : Srt} (h : UnSort op s t) : unSort? op s = some t := by cases h <;> rfl

theorem binSort?_of {op : SBin} {s t u : Srt} (h : BinSort op s t u) : binSort? op s t = some u := by
  cases h <;> simp_all [binSort?]

theorem sortOf_of {D : Decls} {K : Sym → Option Srt} {bs : List Nat} {a : Smt} {s : Srt} (h : Sorted D K bs a s) : sortOf D K bs a = some s := by
  induction h with
  | bool | int | real | str => rfl
  | enum h1 h2 => simp [sortOf, h1, h2]
  | sym h => simp [sortOf, h]
  | idx h => simp [sortOf, h]
  | un _ ho ih => simp [sortOf, ih, unSort?_of ho]
  | bin _ _ ho ih1 ih2 => simp [sortOf, ih1, ih2, binSort?_of ho]
  | ite _ _ _ i1 i2 i3 => simp [sortOf, i1, i2, i3]
  | nth _ _ i1 i2 => simp [sortOf, i1, i2]
  | all _ ih => simp [sortOf, ih]
  | ex _ ih => simp [sortOf, ih]
  | @tuple bs a t k s h hk ih =>
    have : sortOf D K bs (.field a k) = match sortOf D K bs a with | some (.tup t) => tupleKey D t k | _ => none := by
      cases a <;> first | rfl | skip
      cases h
    rw [this, ih]
    exact hk
  | record _ hk ih => simp [sortOf, ih, hk]
  | «matches» _ _ i1 i2 => simp [sortOf, i1, i2]

/-- statements are well formed -/
def wfB (D : Decls) : (Sym → Option Srt) → List SStmt → Bool
  | _, [] => true
  | K, .declare s srt v :: rest =>
    (K s).isNone && (match v with | none => true | some a => sortOf D K [] a == some srt) && wfB D (declared K s srt) rest
  | K, .assert a :: rest => sortOf D K [] a == some .bool && wfB D K rest
  | K, .goal a _ :: rest => sortOf D K [] a == some .bool && wfB D K rest

theorem wfB_of {D : Decls} : ∀ {ss : List SStmt} {K : Sym → Option Srt}, WellFormed D K ss → wfB D K ss = true
  | [], _, _ => rfl
  | .declare s srt v :: r, K, h => by
    obtain ⟨h1, h2, h3⟩ := h
    simp only [wfB, h1, Option.isNone_none, Bool.true_and, wfB_of h3, Bool.and_true]
    cases v with
    | none => rfl
    | some a => simp [sortOf_of (h2 a rfl)]
  | .assert a :: r, K, h => by
    simp [wfB, sortOf_of h.1, wfB_of h.2]
  | .goal a f :: r, K, h => by
    simp [wfB, sortOf_of h.1, wfB_of h.2]

/-- the statements along nodes, the last one first -/
def along (g : TS) : List Nat → Option (List SStmt)
  | [] => none
  | [n] => if n = 0 then some [] else none
  | m :: n :: r =>
    (along g (n :: r)).bind fun ss => (g.nodes[n]?).bind fun ns => if (n, m) ∈ g.edges then some (ss ++ ns) else none

theorem along_path {g : TS} : ∀ {ns : List Nat} {n : Nat} {ss : List SStmt}, along g (n :: ns) = some ss → Path g n ss
  | [], n, ss, h => by
    simp only [along] at h
    split at h
    · next h0 => cases h; subst h0; exact .start
    · cases h
  | m :: r, n, ss, h => by
    simp only [along, Option.bind_eq_some_iff] at h
    obtain ⟨xs, h1, ns, h2, h⟩ := h
    split at h
    · next he => cases h; exact .step (along_path h1) h2 he
    · cases h

/-- the goal at a position after a path is not well formed -/
def badB (D : Decls) (g : TS) (ns : List Nat) (pos : Nat) : Bool :=
  match ns with
  | [] => false
  | n :: _ =>
    match along g ns, g.nodes[n]? with
    | some ss, some xs =>
      match xs[pos]? with
      | some (.goal a f) => !wfB D (fun _ => none) (ss ++ xs.take pos ++ [.goal a f])
      | _ => false
    | _, _ => false

theorem badB_bad {D : Decls} {g : TS} {ns : List Nat} {pos : Nat} (h : badB D g ns pos = true) : ∃ vc, IsVC g vc ∧ ¬ vc.WellFormed D := by
  unfold badB at h
  split at h
  · cases h
  · next n r =>
    split at h
    · next ss xs h1 h2 =>
      split at h
      · next a f h3 =>
        refine ⟨⟨n, pos, ss ++ xs.take pos, a, f⟩, ⟨ss, xs, along_path h1, h2, h3, rfl⟩, fun hw => ?_⟩
        have := wfB_of hw
        simp only at this
        rw [this] at h
        cases h
      · cases h
    · cases h

mutual
/-- an expression is proper -/
def properB : Expr → Bool
  | .null | .bool _ | .int _ | .dec _ | .str _ | .enum _ _ | .name _ _ => true
  | .unary _ op e => properB e && (op != .toInt || e.typ != some .int) && (op != .toDec || e.typ != some .dec)
  | .binary _ op l r => properB l && properB r && (op != .arrContains ||
      match l.typ, r.typ with
      | some τ, some (.arr _ σ _ _) => τ.srt == σ.srt
      | _, _ => true)
  | .logic _ l r => properB l && properB r
  | .field p _ _ => properB p
  | .range e lo up => properB e && properB lo && properB up
  | .oneof cs => propersB cs
  | .cond _ as => properAB as
  | .quant _ _ _ body => properB body
/-- the choices -/
def propersB : Exprs → Bool
  | .nil => true
  | .cons e es => properB e && propersB es
/-- the branches -/
def properAB : Acts → Bool
  | .els e => properB e
  | .act k e rest => properB k && properB e && properAB rest
end

mutual
theorem properB_proper : ∀ e, properB e = true → Proper e
  | .null, _ | .bool _, _ | .int _, _ | .dec _, _ | .str _, _ | .enum _ _, _ | .name _ _, _ => by simp only [Proper]
  | .unary _ op e, h => by
    simp only [properB, Bool.and_eq_true, Bool.or_eq_true, bne_iff_ne] at h
    simp only [Proper]
    exact ⟨properB_proper e h.1.1, fun ho => h.1.2.resolve_left (fun hn => hn ho), fun ho => h.2.resolve_left (fun hn => hn ho)⟩
  | .binary _ op l r, h => by
    simp only [properB, Bool.and_eq_true, Bool.or_eq_true, bne_iff_ne] at h
    simp only [Proper]
    refine ⟨properB_proper l h.1.1, properB_proper r h.1.2, fun ho τ id σ lo hi h1 h2 => ?_⟩
    have := h.2.resolve_left (fun hn => hn ho)
    rw [h1, h2] at this
    simpa using this
  | .logic _ l r, h => by
    simp only [properB, Bool.and_eq_true] at h
    simp only [Proper]
    exact ⟨properB_proper l h.1, properB_proper r h.2⟩
  | .field p _ _, h => by
    simp only [properB] at h
    simp only [Proper]
    exact properB_proper p h
  | .range e lo up, h => by
    simp only [properB, Bool.and_eq_true] at h
    simp only [Proper]
    exact ⟨properB_proper e h.1.1, properB_proper lo h.1.2, properB_proper up h.2⟩
  | .oneof cs, h => by
    simp only [properB] at h
    simp only [Proper]
    exact propersB_propers cs h
  | .cond _ as, h => by
    simp only [properB] at h
    simp only [Proper]
    exact properAB_proper as h
  | .quant _ _ _ body, h => by
    simp only [properB] at h
    simp only [Proper]
    exact properB_proper body h
theorem propersB_propers : ∀ es, propersB es = true → Propers es
  | .nil, _ => by simp only [Propers]
  | .cons e es, h => by
    simp only [propersB, Bool.and_eq_true] at h
    simp only [Propers]
    exact ⟨properB_proper e h.1, propersB_propers es h.2⟩
theorem properAB_proper : ∀ as, properAB as = true → ProperA as
  | .els e, h => by
    simp only [properAB] at h
    simp only [ProperA]
    exact properB_proper e h
  | .act k e rest, h => by
    simp only [properAB, Bool.and_eq_true] at h
    simp only [ProperA]
    exact ⟨properB_proper k h.1.1, properB_proper e h.1.2, properAB_proper rest h.2⟩
end

end Verif.Lemmas.Vcg
