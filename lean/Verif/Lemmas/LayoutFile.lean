import Verif.Lemmas.LayoutExpr
/-!
# The same words in a different layout: files
-/
namespace Verif.Lemmas.Layout
open Verif.Model Verif.Lemmas

variable {L : Token → Token → Prop} [hL : SameWord L] {E : FileEnv} {m : Token → MarkupOut}

/-! ## Steps that change the state -/

omit hL in
/-- A step that does not look at the tokens -/
theorem sims_step {α : Type} {x : P α} (hx : ∀ s c n r, x (relay s c n r) = match x s with
      | .ok a s' => .ok a (relay s' c n r) | .err s' => .err (relay s' c n r) | .crash k s' => .crash k (relay s' c n r))
    (hk : ∀ s, (x s).state.nt = s.nt ∧ (x s).state.rest = s.rest) : Sims L Eq x x := by
  constructor
  intro s s' h
  cases h with
  | @mk c n r h1 h2 =>
    rw [hx]
    have := hk s
    cases hs : x s <;> rw [hs] at this <;> simp only [PR.state] at this
    · exact .ok rfl (.mk (by rw [this.1]; exact h1) (by rw [this.2]; exact h2))
    · exact .err (.mk (by rw [this.1]; exact h1) (by rw [this.2]; exact h2))
    · exact .crash (.mk (by rw [this.1]; exact h1) (by rw [this.2]; exact h2))

omit hL in
instance {o : Nat} {n : String} {v : VNode} : Sims L Eq (P.assign o n v) (P.assign o n v) := by
  refine sims_step (fun s c n' r => ?_) fun s => ?_
  · unfold P.assign
    simp only [relay_field]
    cases s.field o n with
    | none => rfl
    | some x => dsimp only; split <;> rfl
  · unfold P.assign
    cases s.field o n with
    | none => exact ⟨rfl, rfl⟩
    | some x => dsimp only; split <;> exact ⟨rfl, rfl⟩

omit hL in
instance {v : PVal} : Sims L Eq (P.newNode v) (P.newNode v) :=
  sims_step (fun _ _ _ _ => rfl) fun _ => ⟨rfl, rfl⟩

omit hL in
instance : Sims L Eq P.fresh P.fresh := sims_step (fun _ _ _ _ => rfl) fun _ => ⟨rfl, rfl⟩

omit hL in
instance {t : Nat} {n : String} {v : VNode} : Sims L Eq (P.setFrozen t n v) (P.setFrozen t n v) :=
  sims_step (fun _ _ _ _ => rfl) fun _ => ⟨rfl, rfl⟩

omit hL in
instance {t : Nat} {n : List Char} : Sims L Eq (P.newObject E t n) (P.newObject (re E m) t n) := by
  show Sims L Eq (P.newObject E t n) (P.newObject E t n)
  refine sims_step (fun s c n' r => ?_) fun s => ?_
  · unfold P.newObject
    show (match s.tabs[E.pkg]? with | none => _ | some T => _) = _
    cases s.tabs[E.pkg]? with
    | none => rfl
    | some T =>
      show (match T.register { name := n, id := s.objs.length, cls := clsObject } with | .error e => _ | .ok t => _) = _
      dsimp only
      cases T.register { name := n, id := s.objs.length, cls := clsObject } <;> rfl
  · unfold P.newObject
    cases s.tabs[E.pkg]? with
    | none => exact ⟨rfl, rfl⟩
    | some T =>
      dsimp only
      cases T.register { name := n, id := s.objs.length, cls := clsObject } <;> exact ⟨rfl, rfl⟩

omit hL in
theorem sims_registerType {n : List Char} {id cls : Nat} {upd : PS → PS}
    (hu : ∀ s c n r, upd (relay s c n r) = relay (upd s) c n r)
    (hk : ∀ s, (upd s).nt = s.nt ∧ (upd s).rest = s.rest) :
    Sims L Eq (P.registerType E n id cls upd) (P.registerType (re E m) n id cls upd) := by
  show Sims L Eq (P.registerType E n id cls upd) (P.registerType E n id cls upd)
  refine sims_step (fun s c n' r => ?_) fun s => ?_
  · unfold P.registerType
    rw [hu]
    show (match s.tabs[E.pkg]? with | none => _ | some T => _) = _
    cases s.tabs[E.pkg]? with
    | none => rfl
    | some T =>
      dsimp only
      cases T.register { name := n, id := id, cls := cls } <;> rfl
  · unfold P.registerType
    cases s.tabs[E.pkg]? with
    | none => exact ⟨rfl, rfl⟩
    | some T =>
      dsimp only
      cases T.register { name := n, id := id, cls := cls } with
      | error e => exact ⟨rfl, rfl⟩
      | ok T' => exact hk s

omit hL in
instance {t : Nat} {n : List Char} : Sims L Eq (P.addLiteral t n) (P.addLiteral t n) := by
  refine sims_step (fun s c n' r => ?_) fun s => ?_
  · unfold P.addLiteral
    simp only [relay_decls]
    cases registerName (((s.decls.enums[t]?).getD []).map String.toList) n <;> rfl
  · unfold P.addLiteral
    cases registerName (((s.decls.enums[t]?).getD []).map String.toList) n <;> exact ⟨rfl, rfl⟩

omit hL in
instance {t : Nat} {x : Comp} : Sims L Eq (P.addComponent t x) (P.addComponent t x) := by
  refine sims_step (fun s c n' r => ?_) fun s => ?_
  · unfold P.addComponent
    simp only [relay_decls]
    cases registerName (compNames (s.decls.allComponents t)) x.name.toList <;> rfl
  · unfold P.addComponent
    cases registerName (compNames (s.decls.allComponents t)) x.name.toList <;> exact ⟨rfl, rfl⟩

omit hL in
instance {ct : CompositeTy} {x : Check} : Sims L Eq (P.addCheck ct x) (P.addCheck ct x) := by
  unfold P.addCheck
  cases ct <;> exact sims_modify _ (fun _ _ _ _ => rfl) (fun _ => rfl) fun _ => rfl

/-! ## Objects -/

section
variable [hm : SameMarkup L E m]

instance {o t : Nat} : Sims L Eq (parseAssignment E o t) (parseAssignment (re E m) o t) := by
  unfold parseAssignment; sims

theorem sims_assignLoop {o t : Nat} : ∀ k k', Sims L Eq (assignLoop E o t k) (assignLoop (re E m) o t k')
  | 0, _ => sims_fuelL
  | _ + 1, 0 => sims_fuelR
  | k + 1, k' + 1 => by
    have ih := sims_assignLoop (o := o) (t := t) k k'
    unfold assignLoop
    sims

instance {o t k k' : Nat} : Sims L Eq (assignLoop E o t k) (assignLoop (re E m) o t k') := sims_assignLoop k k'
end

theorem sims_completeLoop {o t : Nat} : ∀ cs : List Comp, Sims L Eq (completeLoop o t cs) (completeLoop o t cs)
  | [] => by unfold completeLoop; infer_instance
  | c :: cs => by
    have ih := sims_completeLoop (o := o) (t := t) cs
    unfold completeLoop
    sims

instance {o t : Nat} {cs : List Comp} : Sims L Eq (completeLoop o t cs) (completeLoop o t cs) := sims_completeLoop cs

section
variable [hm : SameMarkup L E m]

instance {e : Ent} : Sims L Eq (parseObjectOf E e) (parseObjectOf (re E m) e) := by unfold parseObjectOf; sims

instance : Sims L Eq (parseObject E) (parseObject (re E m)) := by unfold parseObject; sims

omit hL hm in
instance {x : List Char} : Sims L Eq (P.modify fun s => { s with sects := s.sects ++ [x] })
    (P.modify fun s => { s with sects := s.sects ++ [x] }) :=
  sims_modify _ (fun _ _ _ _ => rfl) (fun _ => rfl) fun _ => rfl

omit hL hm in
instance : Sims L Eq (P.modify fun s => { s with sects := s.sects.dropLast })
    (P.modify fun s => { s with sects := s.sects.dropLast }) :=
  sims_modify _ (fun _ _ _ _ => rfl) (fun _ => rfl) fun _ => rfl

mutual
theorem sims_parseEntry : ∀ k k', Sims L Eq (parseEntry E k) (parseEntry (re E m) k')
  | 0, _ => sims_fuelL
  | _ + 1, 0 => sims_fuelR
  | k + 1, k' + 1 => by
    have ih := sims_sectionLoop k k'
    unfold parseEntry
    sims
theorem sims_sectionLoop : ∀ k k', Sims L Eq (sectionLoop E k) (sectionLoop (re E m) k')
  | 0, _ => sims_fuelL
  | _ + 1, 0 => sims_fuelR
  | k + 1, k' + 1 => by
    have ih := sims_parseEntry k k'
    have ih' := sims_sectionLoop k k'
    unfold sectionLoop
    sims
end

instance {k k' : Nat} : Sims L Eq (parseEntry E k) (parseEntry (re E m) k') := sims_parseEntry k k'

omit hL hm in
theorem sims_tryCatch {α : Type} {x y : P α} {h h' : P α} (hx : Sims L Eq x y) (hh : Sims L Eq h h') :
    Sims L Eq (P.tryCatch x h) (P.tryCatch y h') := by
  constructor
  intro s s' hs
  unfold P.tryCatch
  have h1 := hx.sim s s' hs
  generalize x s = a at h1 ⊢
  generalize y s' = b at h1 ⊢
  cases h1 with
  | fuelL => exact .fuelL
  | fuelR => exact .fuelR
  | ok h1 h2 => exact .ok h1 h2
  | err h1 => exact hh.sim _ _ h1
  | crash h1 => exact .crash h1

omit hL hm in
theorem sims_recoverFile (hE : E.recover = false) : Sims L Eq (recoverFile E) (recoverFile (re E m)) := by
  unfold recoverFile
  show Sims L Eq (if (!E.recover) = true then _ else _) (if (!E.recover) = true then _ else _)
  rw [hE]
  exact ⟨fun _ _ h => .err h⟩

theorem sims_fileLoop (hE : E.recover = false) : ∀ k k' ok, Sims L Eq (fileLoop E k ok) (fileLoop (re E m) k' ok)
  | 0, _, _ => sims_fuelL
  | _ + 1, 0, _ => sims_fuelR
  | k + 1, k' + 1, ok => by
    have ih := fun ok => sims_fileLoop hE k k' ok
    have := sims_recoverFile (L := L) (m := m) hE
    unfold fileLoop
    refine sims_get fun s c n r hn hr => ?_
    simp only [relay_peek hn, relay_peekKw hn]
    refine sims_ite (sims_eq (sims_tryCatch ?_ this) fun _ => ih _) inferInstance
    sims

theorem sims_parseTrlcFile (hE : E.recover = false) : Sims L Eq (parseTrlcFile E) (parseTrlcFile (re E m)) := by
  have := fun k k' ok => sims_fileLoop (L := L) (m := m) hE k k' ok
  unfold parseTrlcFile
  sims
end

/-! ## Declarations -/

instance : Sims L L parseDescribedName parseDescribedName := by unfold parseDescribedName; sims

theorem sims_literalLoop {t : Nat} : ∀ k k' b, Sims L Eq (literalLoop t k b) (literalLoop t k' b)
  | 0, _, _ => sims_fuelL
  | _ + 1, 0, _ => sims_fuelR
  | k + 1, k' + 1, b => by
    have ih := fun b => sims_literalLoop (t := t) k k' b
    unfold literalLoop
    sims

instance {t k k' : Nat} {b : Bool} : Sims L Eq (literalLoop t k b) (literalLoop t k' b) := sims_literalLoop k k' b

instance : Sims L Eq (parseEnumDecl E) (parseEnumDecl (re E m)) := by
  unfold parseEnumDecl
  sims
  exact sims_registerType (fun _ _ _ _ => rfl) fun _ => ⟨rfl, rfl⟩

theorem sims_unionLoop : ∀ k k' acc, Sims L Eq (unionLoop E k acc) (unionLoop (re E m) k' acc)
  | 0, _, _ => sims_fuelL
  | _ + 1, 0, _ => sims_fuelR
  | k + 1, k' + 1, acc => by
    have ih := fun acc => sims_unionLoop k k' acc
    unfold unionLoop
    sims

instance {k k' : Nat} {acc : List Nat} : Sims L Eq (unionLoop E k acc) (unionLoop (re E m) k' acc) :=
  sims_unionLoop k k' acc

theorem sims_reportDuplicates : ∀ seen ts, Sims L Eq (reportDuplicates seen ts) (reportDuplicates seen ts)
  | _, [] => by unfold reportDuplicates; infer_instance
  | seen, t :: ts => by
    have ih := fun seen => sims_reportDuplicates seen ts
    unfold reportDuplicates
    sims

instance {seen ts : List Nat} : Sims L Eq (reportDuplicates seen ts) (reportDuplicates seen ts) :=
  sims_reportDuplicates seen ts

instance : Sims L Eq (parseUnionType E) (parseUnionType (re E m)) := by unfold parseUnionType; sims

instance : Sims L Eq (parseFieldType E) (parseFieldType (re E m)) := by unfold parseFieldType; sims

instance : Sims L Eq parseUpperBound parseUpperBound := by
  unfold parseUpperBound P.natOf
  refine sims_get fun s c n r hn hr => ?_
  have h : (n.any fun t => decide (t.kind = .OPERATOR ∧ t.text = ['*'])) =
      s.nt.any fun t => decide (t.kind = .OPERATOR ∧ t.text = ['*']) :=
    any_like (fun t t' h => by rw [hL.kind h, text_like h]) hn
  simp only [relay_peek hn, relay_nt, h, isNone_like hn]
  sims

instance {τ : Ty} : Sims L Eq (parseArrayType τ) (parseArrayType τ) := by
  unfold parseArrayType P.natOf; sims

instance {t : Nat} {a b : Bool} : Sims L Eq (parseTupleField E t a b) (parseTupleField (re E m) t a b) := by
  unfold parseTupleField; sims

omit hL in
instance {cs : List Comp} {c : Comp} : Sims L Eq (P.addField cs c) (P.addField cs c) := by
  unfold P.addField; split <;> infer_instance

instance {cs : List Comp} {seps : List Sep} : Sims L Eq (parseSeparator cs seps) (parseSeparator cs seps) := by
  unfold parseSeparator
  refine sims_get fun s c n r hn hr => ?_
  rw [relay_nt]
  cases h : s.nt with
  | none => rw [h] at hn; cases hn; exact sims_pure
  | some t =>
    rw [h] at hn
    cases hn with
    | some ht =>
      dsimp only
      simp only [hL.kind ht, text_like ht]
      sims

theorem sims_tupleLoop {t : Nat} : ∀ k k' a b c cs seps,
    Sims L Eq (tupleLoop E t k a b c cs seps) (tupleLoop (re E m) t k' a b c cs seps)
  | 0, _, _, _, _, _, _ => sims_fuelL
  | _ + 1, 0, _, _, _, _, _ => sims_fuelR
  | k + 1, k' + 1, a, b, c, cs, seps => by
    have ih := fun a b c cs seps => sims_tupleLoop (t := t) k k' a b c cs seps
    unfold tupleLoop
    sims

instance {t k k' : Nat} {a b c : Bool} {cs : List Comp} {seps : List Sep} :
    Sims L Eq (tupleLoop E t k a b c cs seps) (tupleLoop (re E m) t k' a b c cs seps) :=
  sims_tupleLoop k k' a b c cs seps

instance : Sims L Eq (parseTupleDecl E) (parseTupleDecl (re E m)) := by
  unfold parseTupleDecl
  sims
  exact sims_registerType (fun _ _ _ _ => rfl) fun _ => ⟨rfl, rfl⟩

instance {t : Nat} : Sims L Eq (parseComponent E t) (parseComponent (re E m) t) := by unfold parseComponent; sims

section
variable [hm : SameMarkup L E m]

instance {t : Nat} : Sims L Eq (parseFreeze E t) (parseFreeze (re E m) t) := by unfold parseFreeze; sims

theorem sims_recordLoop {t : Nat} : ∀ k k', Sims L Eq (recordLoop E t k) (recordLoop (re E m) t k')
  | 0, _ => sims_fuelL
  | _ + 1, 0 => sims_fuelR
  | k + 1, k' + 1 => by
    have ih := sims_recordLoop (t := t) k k'
    unfold recordLoop
    sims

instance {t k k' : Nat} : Sims L Eq (recordLoop E t k) (recordLoop (re E m) t k') := sims_recordLoop k k'

instance : Sims L Eq (parseRecordDecl E) (parseRecordDecl (re E m)) := by
  unfold parseRecordDecl
  sims
  · exact sims_registerType (fun _ _ _ _ => rfl) fun _ => ⟨rfl, rfl⟩
  · exact sims_modify _ (fun _ _ _ _ => rfl) (fun _ => rfl) fun _ => rfl

instance : Sims L Eq (parseTypeDecl E) (parseTypeDecl (re E m)) := by unfold parseTypeDecl; sims
end

/-! ## Checks -/

instance : Sims L Eq parseSeverity parseSeverity := by unfold parseSeverity; sims

instance : Sims L Eq parseMessage parseMessage := by unfold parseMessage; sims

instance {ct : CompositeTy} : Sims L Eq (parseAnchor ct) (parseAnchor ct) := by unfold parseAnchor; sims

instance {ct : CompositeTy} : Sims L Eq (parseExtras ct) (parseExtras ct) := by unfold parseExtras; sims

instance {rx : Regex} {ct : CompositeTy} : Sims L Eq (parseCheck E rx ct) (parseCheck (re E m) rx ct) := by
  unfold parseCheck
  have h : ∀ s c n r, (relay s c n r).scope (re E m) = s.scope E := fun _ _ _ _ => rfl
  refine sims_get fun s c n r hn hr => ?_
  rw [h]
  simp only [relay_decls]
  sims

theorem sims_checkLoop {rx : Regex} {ct : CompositeTy} : ∀ k k',
    Sims L Eq (checkLoop E rx ct k) (checkLoop (re E m) rx ct k')
  | 0, _ => sims_fuelL
  | _ + 1, 0 => sims_fuelR
  | k + 1, k' + 1 => by
    have ih := sims_checkLoop (rx := rx) (ct := ct) k k'
    unfold checkLoop
    sims

instance {rx : Regex} {ct : CompositeTy} {k k' : Nat} :
    Sims L Eq (checkLoop E rx ct k) (checkLoop (re E m) rx ct k') := sims_checkLoop k k'

instance {rx : Regex} : Sims L Eq (parseCheckBlock E rx) (parseCheckBlock (re E m) rx) := by
  unfold parseCheckBlock; sims

section
variable [hm : SameMarkup L E m]

instance {rx : Regex} : Sims L Eq (parseRslItem E rx) (parseRslItem (re E m) rx) := by unfold parseRslItem; sims

omit hL hm in
theorem sims_recoverRsl (hE : E.recover = false) : Sims L Eq (recoverRsl E) (recoverRsl (re E m)) := by
  unfold recoverRsl
  show Sims L Eq (if (!E.recover) = true then _ else _) (if (!E.recover) = true then _ else _)
  rw [hE]
  exact ⟨fun _ _ h => .err h⟩

theorem sims_rslLoop {rx : Regex} (hE : E.recover = false) : ∀ k k' ok,
    Sims L Eq (rslLoop E rx k ok) (rslLoop (re E m) rx k' ok)
  | 0, _, _ => sims_fuelL
  | _ + 1, 0, _ => sims_fuelR
  | k + 1, k' + 1, ok => by
    have ih := fun ok => sims_rslLoop (rx := rx) hE k k' ok
    have := sims_recoverRsl (L := L) (m := m) hE
    unfold rslLoop
    refine sims_get fun s c n r hn hr => ?_
    simp only [relay_peekEof hn]
    refine sims_ite inferInstance (sims_eq (sims_tryCatch ?_ this) fun _ => ih _)
    sims

theorem sims_parseRslFile {rx : Regex} (hE : E.recover = false) :
    Sims L Eq (parseRslFile E rx) (parseRslFile (re E m) rx) := by
  have := fun k k' ok => sims_rslLoop (L := L) (m := m) (rx := rx) hE k k' ok
  unfold parseRslFile
  sims
end

end Verif.Lemmas.Layout
