import Verif.Lemmas.RenameExpr
/-!
# Two runs with different packages: files
-/
namespace Verif.Lemmas.Rename
open Verif.Model Verif.Lemmas

variable {K : Ren} [hK : K.Ok] {Q : Token → Prop} [hQ : Words K Q] {E E' : FileEnv} [hE : EnvR K Q E E']

/-! ## Steps that change the state -/

omit hK hQ in
theorem map_modify {α : Type} {f : α → α} {g g' : α → α} (h : ∀ a, f (g a) = g' (f a)) (l : List α) (i : Nat) :
    (l.map f).modify i g' = (l.modify i g).map f := by
  apply List.ext_getElem?
  intro j
  simp only [List.getElem?_modify, List.getElem?_map]
  cases l[j]? with
  | none => split <;> rfl
  | some a =>
    by_cases hij : i = j
    · simp [hij, h]
    · simp [hij]

omit hK hQ in
theorem mem_modify {α : Type} {l : List α} {i : Nat} {g : α → α} {x : α} (h : x ∈ l.modify i g) :
    x ∈ l ∨ ∃ a ∈ l, x = g a := by
  obtain ⟨j, hj⟩ := List.mem_iff_getElem?.1 h
  rw [List.getElem?_modify] at hj
  cases hl : l[j]? with
  | none => rw [hl] at hj; split at hj <;> cases hj
  | some a =>
    rw [hl] at hj
    by_cases hij : i = j
    · simp only [hij, if_true] at hj
      exact .inr ⟨a, List.mem_of_getElem? hl, (Option.some.inj hj).symm⟩
    · simp only [hij, if_false] at hj
      exact .inl (by rw [← Option.some.inj hj]; exact List.mem_of_getElem? hl)

omit hK hQ in
theorem setKey_mem {β : Type} {d : List (String × β)} {n : String} {v : β} {f : String × β} (h : f ∈ setKey d n v) :
    f ∈ d ∨ f.2 = v := by
  unfold setKey at h
  obtain ⟨x, hx, rfl⟩ := List.mem_map.1 h
  split
  · exact .inr rfl
  · exact .inl hx

omit hK hQ in
theorem ren_setField {s : PS} {ts : List STab} (o : Nat) (n : String) (v : VNode) :
    (ren K s ts).setField o n (K.node v) = ren K (s.setField o n v) ts := by
  unfold PS.setField ren
  dsimp only
  congr 1
  refine map_modify (fun ob => ?_) _ _
  unfold Ren.obj
  dsimp only
  rw [setKey_entry]

omit hK hQ in
theorem sims_assign {o : Nat} {n : String} {v : VNode} (hv : K.Good v.val) :
    Sims K Q Eq (P.assign o n v) (P.assign o n (K.node v)) := by
  constructor
  intro s s' h
  cases h with
  | @mk ts h =>
    unfold P.assign
    rw [ren_field]
    cases s.field o n with
    | none => exact .crash (.mk h)
    | some x =>
      dsimp only [Option.map_some, Ren.node]
      rw [val_isNull]
      split
      · rw [show (ren K s ts).setField o n ⟨v.id, K.val v.val⟩ = _ from ren_setField o n v]
        refine .ok rfl (.mk ⟨h.tabs, h.next, h.rest, ?_, h.infos⟩)
        intro ob hob f hf
        rcases mem_modify hob with hob | ⟨a, ha, rfl⟩
        · exact h.objs ob hob f hf
        · rcases setKey_mem hf with hf | hf
          · exact h.objs a ha f hf
          · rw [hf]; exact hv
      · exact .crash (.mk h)

omit hK hQ in
theorem sims_newNode {v : PVal} (hv : K.Good v) : Sims K Q (NodeR K) (P.newNode v) (P.newNode (K.val v)) := by
  constructor
  intro s s' h
  cases h with
  | @mk ts h =>
    exact .ok ⟨rfl, hv⟩ (Sim.mk (s := { s with nid := s.nid + 1 }) ⟨h.tabs, h.next, h.rest, h.objs, h.infos⟩)

omit hK hQ in
instance : Sims K Q Eq P.fresh P.fresh := by
  constructor
  intro s s' h
  cases h with
  | @mk ts h =>
    exact .ok rfl (Sim.mk (s := { s with nid := s.nid + 1 }) ⟨h.tabs, h.next, h.rest, h.objs, h.infos⟩)

omit hK hQ in
theorem sims_setFrozen {t : Nat} {n : String} {v : VNode} (hv : K.Good v.val) :
    Sims K Q Eq (P.setFrozen t n v) (P.setFrozen t n (K.node v)) := by
  constructor
  intro s s' h
  cases h with
  | @mk ts h =>
    unfold P.setFrozen
    have e : ({ ren K s ts with infos := (ren K s ts).infos.modify t fun i => { i with frozen := i.frozen ++ [(n, K.node v)] } } : PS) =
        ren K { s with infos := s.infos.modify t fun i => { i with frozen := i.frozen ++ [(n, v)] } } ts := by
      unfold ren
      dsimp only
      congr 1
      refine map_modify (fun i => ?_) _ _
      unfold Ren.info
      dsimp only
      rw [List.map_append]
      rfl
    rw [e]
    refine .ok rfl (.mk ⟨h.tabs, h.next, h.rest, h.objs, ?_⟩)
    intro i hi f hf
    rcases mem_modify hi with hi | ⟨a, ha, rfl⟩
    · exact h.infos i hi f hf
    · rcases List.mem_append.1 hf with hf | hf
      · exact h.infos a ha f hf
      · rw [List.mem_singleton.1 hf]; exact hv

omit hK hQ in
theorem freshFields_ren : ∀ (n : Nat) (cs : List Comp),
    (freshFields n cs).map K.entry = freshFields n cs ∧ ∀ f ∈ freshFields n cs, K.Good f.2.val
  | _, [] => ⟨rfl, fun f hf => by cases hf⟩
  | n, c :: cs => by
    have ih := freshFields_ren (n + 1) cs
    unfold freshFields
    refine ⟨by rw [List.map_cons, ih.1]; rfl, fun f hf => ?_⟩
    rcases List.mem_cons.1 hf with rfl | hf
    · trivial
    · exact ih.2 f hf

omit hQ in
include hE in
theorem sims_newObject {t : Nat} {n : List Char} (hn : K.Seen n) :
    Sims K Q Eq (P.newObject E t n) (P.newObject E' t n) := by
  constructor
  intro s s' h
  cases h with
  | @mk ts h =>
    unfold P.newObject
    dsimp only
    rw [hE.pkg, show (ren K s ts).tabs = ts from rfl, show (ren K s ts).objs.length = s.objs.length from List.length_map ..]
    rcases h.tabs.get E.pkg with ⟨h1, h2⟩ | ⟨T, T', h1, h2, h3⟩
    · rw [h1, h2]; exact .crash (.mk h)
    · rw [h1, h2]
      dsimp only
      have hr := h3.register (e := { name := n, id := s.objs.length, cls := clsObject }) hn (show clsObject ≠ clsPackage by decide)
      generalize T.register { name := n, id := s.objs.length, cls := clsObject } = a at hr ⊢
      generalize T'.register { name := n, id := s.objs.length, cls := clsObject } = b at hr ⊢
      cases hr with
      | error =>
        exact (sims_fail' (K := K) (Q := Q)).sim _ _ (Sim.mk (s := { s with nid := _ })
          ⟨h.tabs, h.next, h.rest, h.objs, h.infos⟩)
      | @ok U U' hU =>
        have hf := freshFields_ren (K := K) s.nid (s.decls.allComponents t)
        have e : ({ ren K s ts with
              nid := s.nid + (s.decls.allComponents t).length
              tabs := ts.set (K.num E.pkg) U'
              objs := (ren K s ts).objs ++ [(⟨K.num E.pkg, n, t, s.sects, freshFields s.nid (s.decls.allComponents t)⟩ : Obj)] } : PS) =
            ren K { s with
              nid := s.nid + (s.decls.allComponents t).length
              tabs := s.tabs.set E.pkg U
              objs := s.objs ++ [(⟨E.pkg, n, t, s.sects, freshFields s.nid (s.decls.allComponents t)⟩ : Obj)] } (ts.set (K.num E.pkg) U') := by
          unfold ren
          dsimp only
          rw [List.map_append]
          simp only [List.map_cons, List.map_nil, Ren.obj, hf.1]
        refine .ok rfl ?_
        refine Eq.mpr (congrArg (Sim K Q _) e) (.mk ⟨h.tabs.set hU, h.next, h.rest, ?_, h.infos⟩)
        intro ob hob f hff
        rcases List.mem_append.1 hob with hob | hob
        · exact h.objs ob hob f hff
        · rw [List.mem_singleton.1 hob] at hff; exact hf.2 f hff

omit hQ in
include hE in
theorem sims_registerType {n : List Char} (hn : K.Seen n) {id cls : Nat} (hc : cls ≠ clsPackage) {upd : PS → PS}
    (hu : ∀ s ts ts', { upd (ren K s ts) with tabs := ts' } = ren K (upd s) ts')
    (hk : ∀ s ts, StR K Q s ts → StR K Q (upd s) ts) :
    Sims K Q Eq (P.registerType E n id cls upd) (P.registerType E' n id cls upd) := by
  constructor
  intro s s' h
  cases h with
  | @mk ts h =>
    unfold P.registerType
    rw [hE.pkg, show (ren K s ts).tabs = ts from rfl]
    rcases h.tabs.get E.pkg with ⟨h1, h2⟩ | ⟨T, T', h1, h2, h3⟩
    · rw [h1, h2]; exact .crash (.mk h)
    · rw [h1, h2]
      dsimp only
      have hr := h3.register (e := { name := n, id := id, cls := cls }) hn hc
      generalize T.register { name := n, id := id, cls := cls } = a at hr ⊢
      generalize T'.register { name := n, id := id, cls := cls } = b at hr ⊢
      cases hr with
      | error => exact (sims_fail' (K := K) (Q := Q)).sim _ _ (.mk h)
      | @ok U U' hU =>
        dsimp only
        rw [hu]
        have hk := hk s ts h
        exact .ok rfl (Sim.mk (s := { upd s with tabs := s.tabs.set E.pkg U }) ⟨h.tabs.set hU, hk.next, hk.rest, hk.objs, hk.infos⟩)

omit hK hQ in
instance {t : Nat} {n : List Char} : Sims K Q Eq (P.addLiteral t n) (P.addLiteral t n) := by
  constructor
  intro s s' h
  cases h with
  | @mk ts h =>
    unfold P.addLiteral
    rw [ren_decls]
    cases registerName (((s.decls.enums[t]?).getD []).map String.toList) n with
    | error e => exact (sims_fail' (K := K) (Q := Q)).sim _ _ (.mk h)
    | ok _ => exact .ok rfl (Sim.mk (s := { s with decls := _ }) ⟨h.tabs, h.next, h.rest, h.objs, h.infos⟩)

omit hK hQ in
instance {t : Nat} {x : Comp} : Sims K Q Eq (P.addComponent t x) (P.addComponent t x) := by
  constructor
  intro s s' h
  cases h with
  | @mk ts h =>
    unfold P.addComponent
    rw [ren_decls]
    cases registerName (compNames (s.decls.allComponents t)) x.name.toList with
    | error e => exact (sims_fail' (K := K) (Q := Q)).sim _ _ (.mk h)
    | ok _ => exact .ok rfl (Sim.mk (s := { s with decls := _ }) ⟨h.tabs, h.next, h.rest, h.objs, h.infos⟩)

omit hK hQ in
instance {ct : CompositeTy} {x : Check} : Sims K Q Eq (P.addCheck ct x) (P.addCheck ct x) := by
  unfold P.addCheck
  cases ct <;> exact sims_modify _ (fun _ _ => rfl) (fun _ => rfl) (fun _ => rfl) (fun _ => rfl) (fun _ => rfl) fun _ => rfl

/-! ## Objects -/

instance {o t : Nat} : Sims K Q Eq (parseAssignment E o t) (parseAssignment E' o t) := by
  unfold parseAssignment
  refine sims_tok inferInstance fun tok _ => ?_
  refine sims_get fun s ts hs => ?_
  simp only [ren_decls, ren_field, ren_frozen]
  cases s.decls.component t (String.ofList tok.text) with
  | none => exact sims_fail'
  | some c =>
    dsimp only
    cases s.field o c.name with
    | none => exact sims_crash'
    | some n =>
      dsimp only [Option.map_some, Ren.node]
      rw [val_isNull]
      refine sims_ite sims_fail' (sims_ite sims_fail' ?_)
      refine sims_tok inferInstance fun _ _ => ?_
      refine sims_val inferInstance fun v hv => ?_
      refine sims_node (sims_newNode hv) fun v hv => ?_
      exact sims_assign hv

theorem sims_assignLoop {o t : Nat} : ∀ k, Sims K Q Eq (assignLoop E o t k) (assignLoop E' o t k)
  | 0 => sims_crash'
  | k + 1 => by
    have ih := sims_assignLoop (o := o) (t := t) k
    unfold assignLoop
    sims

instance {o t k : Nat} : Sims K Q Eq (assignLoop E o t k) (assignLoop E' o t k) := sims_assignLoop k

omit hK hQ in
theorem sims_completeLoop {o t : Nat} : ∀ cs : List Comp, Sims K Q Eq (completeLoop o t cs) (completeLoop o t cs)
  | [] => by unfold completeLoop; infer_instance
  | c :: cs => by
    have ih := sims_completeLoop (o := o) (t := t) cs
    unfold completeLoop
    refine sims_get fun s ts hs => ?_
    simp only [ren_field, ren_frozen, ren_freezing]
    cases s.field o c.name with
    | none => exact sims_crash'
    | some n =>
      dsimp only [Option.map_some]
      rw [show (K.node n).val = K.val n.val from rfl, val_isNull]
      refine sims_ite (sims_ite ?_ (sims_ite sims_fail' ih)) ih
      cases hf : s.freezing t c.name with
      | none => exact sims_crash'
      | some f => exact sims_eq (sims_assign (hs.freezing hf)) fun _ => ih

omit hK hQ in
instance {o t : Nat} {cs : List Comp} : Sims K Q Eq (completeLoop o t cs) (completeLoop o t cs) := sims_completeLoop cs

instance {e : Ent} : Sims K Q Eq (parseObjectOf E e) (parseObjectOf E' e) := by
  unfold parseObjectOf
  refine sims_get fun s ts hs => ?_
  simp only [ren_abstract]
  refine sims_ite sims_fail' ?_
  refine sims_tok inferInstance fun tok ht => ?_
  refine sims_eq (sims_newObject (hQ.seen ht)) fun o => ?_
  sims

instance : Sims K Q Eq (parseObject E) (parseObject E') := by
  unfold parseObject
  exact sims_eq inferInstance fun e => inferInstance

omit hK hQ in
instance {x : List Char} : Sims K Q Eq (P.modify fun s => { s with sects := s.sects ++ [x] })
    (P.modify fun s => { s with sects := s.sects ++ [x] }) :=
  sims_modify _ (fun _ _ => rfl) (fun _ => rfl) (fun _ => rfl) (fun _ => rfl) (fun _ => rfl) fun _ => rfl

omit hK hQ in
instance : Sims K Q Eq (P.modify fun s => { s with sects := s.sects.dropLast })
    (P.modify fun s => { s with sects := s.sects.dropLast }) :=
  sims_modify _ (fun _ _ => rfl) (fun _ => rfl) (fun _ => rfl) (fun _ => rfl) (fun _ => rfl) fun _ => rfl

mutual
theorem sims_parseEntry : ∀ k, Sims K Q Eq (parseEntry E k) (parseEntry E' k)
  | 0 => by unfold parseEntry; exact sims_crash'
  | k + 1 => by
    have ih := sims_sectionLoop k
    unfold parseEntry
    sims
theorem sims_sectionLoop : ∀ k, Sims K Q Eq (sectionLoop E k) (sectionLoop E' k)
  | 0 => by unfold sectionLoop; exact sims_crash'
  | k + 1 => by
    have ih := sims_parseEntry k
    have ih' := sims_sectionLoop k
    unfold sectionLoop
    sims
end

instance {k : Nat} : Sims K Q Eq (parseEntry E k) (parseEntry E' k) := sims_parseEntry k

omit hK hQ in
theorem sims_tryCatch {α : Type} {x y : P α} {h h' : P α} (hx : Sims K Q Eq x y) (hh : Sims K Q Eq h h') :
    Sims K Q Eq (P.tryCatch x h) (P.tryCatch y h') := by
  constructor
  intro s s' hs
  unfold P.tryCatch
  have h1 := hx.sim s s' hs
  generalize x s = a at h1 ⊢
  generalize y s' = b at h1 ⊢
  cases h1 with
  | ok h1 h2 => exact .ok h1 h2
  | err h1 => exact hh.sim _ _ h1
  | crash h1 => exact .crash h1

include hE in
theorem ren_canResume {s : PS} {ts : List STab} (h : StR K Q s ts) : (ren K s ts).canResume E' = s.canResume E := by
  unfold PS.canResume
  rw [ren_peekKw, ren_nt]
  split
  · rfl
  · cases hn : s.nt with
    | none => rfl
    | some t =>
      dsimp only
      by_cases hk : t.kind = .IDENTIFIER
      case neg => rw [if_pos hk, if_pos hk]
      have hs := hQ.seen ⟨h.next t hn, hk⟩
      rw [hE.global, hE.global', (agree_glob hs).containsName, (agree_glob hs).lookupAssuming subR_none,
        ((scopeTab (E := E) (E' := E') h).agree hs).containsName,
        ((scopeTab (E := E) (E' := E') h).agree hs).lookupAssuming subR_none]
      have he : ∀ (r : Except SymErr (Option Ent)) (c : Nat),
          (match r.map (Option.map K.ent) with | .ok (some e) => decide (e.cls = c) | _ => false) =
          match r with | .ok (some e) => decide (e.cls = c) | _ => false := by
        intro r c
        rcases r with _ | _ | e
        · rfl
        · rfl
        · simp only [Except.map, Option.map_some, ent_cls]
      split
      · rfl
      · split
        · exact he _ _
        · split
          · exact he _ _
          · rfl

theorem sims_recoverLoop : ∀ k, Sims K Q Eq (recoverLoop E k) (recoverLoop E' k)
  | 0 => sims_crash'
  | k + 1 => by
    have ih := sims_recoverLoop k
    unfold recoverLoop
    refine sims_get fun s ts hs => ?_
    rw [ren_peekEof, ren_canResume (E := E) hs]
    sims

instance {k : Nat} : Sims K Q Eq (recoverLoop E k) (recoverLoop E' k) := sims_recoverLoop k

omit hK hQ in
theorem sims_raise {α : Type} : Sims K Q (Eq (α := α)) (fun s => .err s) (fun s => .err s) := ⟨fun _ _ h => .err h⟩

instance : Sims K Q Eq (recoverFile E) (recoverFile E') := by
  unfold recoverFile
  rw [hE.recover]
  refine sims_ite sims_raise ?_
  sims

theorem sims_fileLoop : ∀ k ok, Sims K Q Eq (fileLoop E k ok) (fileLoop E' k ok)
  | 0, _ => sims_crash'
  | k + 1, ok => by
    have ih := fun ok => sims_fileLoop k ok
    unfold fileLoop
    refine sims_get fun s ts hs => ?_
    simp only [ren_peek, ren_peekKw, ren_toks]
    refine sims_ite (sims_eq (sims_tryCatch ?_ inferInstance) fun _ => ih _) inferInstance
    sims

instance {k : Nat} {ok : Bool} : Sims K Q Eq (fileLoop E k ok) (fileLoop E' k ok) := sims_fileLoop k ok

theorem sims_parseTrlcFile : Sims K Q Eq (parseTrlcFile E) (parseTrlcFile E') := by
  unfold parseTrlcFile
  sims

/-! ## Declarations -/

omit hK hQ in
instance : Sims K Q (TokR fun t => Q t ∧ t.kind = .IDENTIFIER) parseDescribedName parseDescribedName := by
  unfold parseDescribedName
  refine sims_tok inferInstance fun t ht => ?_
  refine sims_get fun s ts hs => ?_
  rw [ren_peek]
  exact sims_cond (sims_tok inferInstance fun _ _ => sims_pure' ⟨rfl, ht⟩) (sims_pure' ⟨rfl, ht⟩)

omit hK hQ in
theorem sims_literalLoop {t : Nat} : ∀ k b, Sims K Q Eq (literalLoop t k b) (literalLoop t k b)
  | 0, _ => sims_crash'
  | k + 1, b => by
    have ih := fun b => sims_literalLoop (t := t) k b
    unfold literalLoop
    sims

omit hK hQ in
instance {t k : Nat} {b : Bool} : Sims K Q Eq (literalLoop t k b) (literalLoop t k b) := sims_literalLoop k b

instance : Sims K Q Eq (parseEnumDecl E) (parseEnumDecl E') := by
  unfold parseEnumDecl
  refine sims_tok inferInstance fun _ _ => ?_
  refine sims_tok inferInstance fun name hn => ?_
  refine sims_get fun s ts hs => ?_
  rw [ren_decls]
  refine sims_eq (sims_registerType (hQ.seen hn) (by decide) (fun _ _ _ => rfl) fun s ts h =>
    ⟨h.tabs, h.next, h.rest, h.objs, h.infos⟩) fun _ => ?_
  sims

theorem sims_unionLoop : ∀ k acc, Sims K Q Eq (unionLoop E k acc) (unionLoop E' k acc)
  | 0, _ => sims_crash'
  | k + 1, acc => by
    have ih := fun acc => sims_unionLoop k acc
    unfold unionLoop
    sims

instance {k : Nat} {acc : List Nat} : Sims K Q Eq (unionLoop E k acc) (unionLoop E' k acc) := sims_unionLoop k acc

omit hK hQ in
theorem sims_reportDuplicates : ∀ seen ts, Sims K Q Eq (reportDuplicates seen ts) (reportDuplicates seen ts)
  | _, [] => by unfold reportDuplicates; infer_instance
  | seen, t :: ts => by
    have ih := fun seen => sims_reportDuplicates seen ts
    unfold reportDuplicates
    sims

omit hK hQ in
instance {seen ts : List Nat} : Sims K Q Eq (reportDuplicates seen ts) (reportDuplicates seen ts) :=
  sims_reportDuplicates seen ts

instance : Sims K Q Eq (parseUnionType E) (parseUnionType E') := by unfold parseUnionType; sims

instance : Sims K Q Eq (parseFieldType E) (parseFieldType E') := by unfold parseFieldType; sims

omit hK hQ in
instance : Sims K Q Eq parseUpperBound parseUpperBound := by unfold parseUpperBound P.natOf; sims

omit hK hQ in
instance {τ : Ty} : Sims K Q Eq (parseArrayType τ) (parseArrayType τ) := by unfold parseArrayType P.natOf; sims

instance {t : Nat} {a b : Bool} : Sims K Q Eq (parseTupleField E t a b) (parseTupleField E' t a b) := by
  unfold parseTupleField; sims

omit hK hQ in
instance {cs : List Comp} {c : Comp} : Sims K Q Eq (P.addField cs c) (P.addField cs c) := by
  unfold P.addField; split <;> infer_instance

omit hK hQ in
instance {cs : List Comp} {seps : List Sep} : Sims K Q Eq (parseSeparator cs seps) (parseSeparator cs seps) := by
  unfold parseSeparator; sims

theorem sims_tupleLoop {t : Nat} : ∀ k a b c cs seps,
    Sims K Q Eq (tupleLoop E t k a b c cs seps) (tupleLoop E' t k a b c cs seps)
  | 0, _, _, _, _, _ => sims_crash'
  | k + 1, a, b, c, cs, seps => by
    have ih := fun a b c cs seps => sims_tupleLoop (t := t) k a b c cs seps
    unfold tupleLoop
    sims

instance {t k : Nat} {a b c : Bool} {cs : List Comp} {seps : List Sep} :
    Sims K Q Eq (tupleLoop E t k a b c cs seps) (tupleLoop E' t k a b c cs seps) := sims_tupleLoop k a b c cs seps

instance : Sims K Q Eq (parseTupleDecl E) (parseTupleDecl E') := by
  unfold parseTupleDecl
  refine sims_tok inferInstance fun _ _ => ?_
  refine sims_tok inferInstance fun name hn => ?_
  sims
  exact sims_registerType (hQ.seen hn) (by decide) (fun _ _ _ => rfl) fun s ts h =>
    ⟨h.tabs, h.next, h.rest, h.objs, h.infos⟩

instance {t : Nat} : Sims K Q Eq (parseComponent E t) (parseComponent E' t) := by unfold parseComponent; sims

instance {t : Nat} : Sims K Q Eq (parseFreeze E t) (parseFreeze E' t) := by
  unfold parseFreeze
  refine sims_tok inferInstance fun _ _ => ?_
  refine sims_tok inferInstance fun tok _ => ?_
  refine sims_get fun s ts hs => ?_
  simp only [ren_decls, ren_frozen]
  refine sims_eq inferInstance fun _ => ?_
  cases s.decls.component t (String.ofList tok.text) with
  | none => exact sims_crash'
  | some c =>
    refine sims_ite sims_fail' ?_
    refine sims_tok inferInstance fun _ _ => ?_
    refine sims_val inferInstance fun v hv => ?_
    exact sims_node (sims_newNode hv) fun v hv => sims_setFrozen hv

theorem sims_recordLoop {t : Nat} : ∀ k, Sims K Q Eq (recordLoop E t k) (recordLoop E' t k)
  | 0 => sims_crash'
  | k + 1 => by
    have ih := sims_recordLoop (t := t) k
    unfold recordLoop
    sims

instance {t k : Nat} : Sims K Q Eq (recordLoop E t k) (recordLoop E' t k) := sims_recordLoop k

omit hK hQ in
theorem sims_setFinal {t : Nat} :
    Sims K Q Eq (P.modify fun s => { s with infos := s.infos.modify t fun i => { i with isFinal := true } })
      (P.modify fun s => { s with infos := s.infos.modify t fun i => { i with isFinal := true } }) := by
  constructor
  intro s s' h
  cases h with
  | @mk ts h =>
    have e : ({ ren K s ts with infos := (ren K s ts).infos.modify t fun i => { i with isFinal := true } } : PS) =
        ren K { s with infos := s.infos.modify t fun i => { i with isFinal := true } } ts := by
      unfold ren
      dsimp only
      congr 1
      exact map_modify (f := K.info) (g := fun i => { i with isFinal := true }) (fun i => rfl) _ _
    refine .ok rfl (Eq.mpr (congrArg (Sim K Q _) e) (.mk ⟨h.tabs, h.next, h.rest, h.objs, ?_⟩))
    intro i hi f hf
    rcases mem_modify hi with hi | ⟨a, ha, rfl⟩
    · exact h.infos i hi f hf
    · exact h.infos a ha f hf

instance : Sims K Q Eq (parseRecordDecl E) (parseRecordDecl E') := by
  unfold parseRecordDecl
  refine sims_get fun s ts hs => ?_
  simp only [ren_peekKw]
  refine sims_eq (by sims) fun ⟨a, f⟩ => ?_
  dsimp only
  refine sims_tok inferInstance fun _ _ => ?_
  refine sims_tok inferInstance fun name hn => ?_
  refine sims_get fun s ts hs => ?_
  simp only [ren_peekKw]
  refine sims_eq (by sims) fun parent => ?_
  refine sims_get fun s ts hs => ?_
  simp only [ren_decls]
  refine sims_eq (sims_registerType (hQ.seen hn) (by decide) (fun s ts ts' => ?_) fun s ts h =>
    ⟨h.tabs, h.next, h.rest, h.objs, fun i hi f hf => ?_⟩) fun _ => ?_
  · simp only [ren_final]
    unfold ren
    dsimp only
    rw [List.map_append]
    rfl
  · rcases List.mem_append.1 hi with hi | hi
    · exact h.infos i hi f hf
    · rw [List.mem_singleton.1 hi] at hf; cases hf
  · sims
    exact sims_setFinal

instance : Sims K Q Eq (parseTypeDecl E) (parseTypeDecl E') := by unfold parseTypeDecl; sims

/-! ## Checks -/

omit hK hQ in
instance : Sims K Q Eq parseSeverity parseSeverity := by unfold parseSeverity; sims

omit hK hQ in
instance : Sims K Q Eq parseMessage parseMessage := by unfold parseMessage; sims

omit hK hQ in
instance {ct : CompositeTy} : Sims K Q Eq (parseAnchor ct) (parseAnchor ct) := by unfold parseAnchor; sims

omit hK hQ in
instance {ct : CompositeTy} : Sims K Q Eq (parseExtras ct) (parseExtras ct) := by unfold parseExtras; sims

instance {rx : Regex} {ct : CompositeTy} : Sims K Q Eq (parseCheck E rx ct) (parseCheck E' rx ct) := by
  unfold parseCheck
  refine sims_get fun s ts hs => ?_
  simp only [ren_decls, ren_toks]
  refine sims_eq (sims_parseExpr _ _ _ ?_) fun e => ?_
  · unfold PS.scope
    rw [hE.global, hE.global']
    exact .mk (scopeTab hs)
  · sims

theorem sims_checkLoop {rx : Regex} {ct : CompositeTy} : ∀ k, Sims K Q Eq (checkLoop E rx ct k) (checkLoop E' rx ct k)
  | 0 => sims_crash'
  | k + 1 => by
    have ih := sims_checkLoop (rx := rx) (ct := ct) k
    unfold checkLoop
    sims

instance {rx : Regex} {ct : CompositeTy} {k : Nat} : Sims K Q Eq (checkLoop E rx ct k) (checkLoop E' rx ct k) :=
  sims_checkLoop k

instance {rx : Regex} : Sims K Q Eq (parseCheckBlock E rx) (parseCheckBlock E' rx) := by
  unfold parseCheckBlock
  refine sims_tok inferInstance fun _ _ => ?_
  refine sims_tok inferInstance fun t ht => ?_
  refine sims_get fun s ts hs => ?_
  rw [((scopeTab (E := E) (E' := E') hs).agree (hQ.seen ht)).lookup (subR_some fun e => by rw [ent_composite?])]
  refine sims_ent sims_liftEnt fun e => ?_
  rw [ent_composite?]
  sims

/-! ## Files -/

instance {rx : Regex} : Sims K Q Eq (parseRslItem E rx) (parseRslItem E' rx) := by unfold parseRslItem; sims

omit hK hQ in
theorem sims_recoverRslLoop : ∀ k, Sims K Q Eq (recoverRslLoop k) (recoverRslLoop k)
  | 0 => sims_crash'
  | k + 1 => by
    have ih := sims_recoverRslLoop k
    unfold recoverRslLoop
    sims

omit hK hQ in
instance {k : Nat} : Sims K Q Eq (recoverRslLoop k) (recoverRslLoop k) := sims_recoverRslLoop k

omit hK hQ in
instance : Sims K Q Eq (recoverRsl E) (recoverRsl E') := by
  unfold recoverRsl
  rw [hE.recover]
  refine sims_ite sims_raise ?_
  sims

theorem sims_rslLoop {rx : Regex} : ∀ k ok, Sims K Q Eq (rslLoop E rx k ok) (rslLoop E' rx k ok)
  | 0, _ => sims_crash'
  | k + 1, ok => by
    have ih := fun ok => sims_rslLoop (rx := rx) k ok
    unfold rslLoop
    refine sims_get fun s ts hs => ?_
    simp only [ren_peekEof]
    refine sims_ite inferInstance (sims_eq (sims_tryCatch ?_ inferInstance) fun _ => ih _)
    sims

instance {rx : Regex} {k : Nat} {ok : Bool} : Sims K Q Eq (rslLoop E rx k ok) (rslLoop E' rx k ok) := sims_rslLoop k ok

theorem sims_parseRslFile {rx : Regex} : Sims K Q Eq (parseRslFile E rx) (parseRslFile E' rx) := by
  unfold parseRslFile
  sims

end Verif.Lemmas.Rename
