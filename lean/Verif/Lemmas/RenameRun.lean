import Verif.Lemmas.RenameFile
import Verif.Lemmas.Preamble
import Verif.Model.Run.Process
/-!
# Two runs with different packages: from the declarations to the end
-/
namespace Verif.Lemmas.Rename
open Verif.Model Verif.Lemmas

/-- The states of the two runs between files -/
structure Btw (K : Ren) (s s' : PS) : Prop where
  tabs : TabsR K s.tabs s'.tabs
  decls : s'.decls = s.decls
  infos : s'.infos = s.infos.map K.info
  seps : s'.seps = s.seps
  objs : s'.objs = s.objs.map K.obj
  nid : s'.nid = s.nid
  errs : s'.errs = s.errs
  checks : s'.checks = s.checks
  goodO : ∀ o ∈ s.objs, ∀ f ∈ o.fields, K.Good f.2.val
  goodI : ∀ i ∈ s.infos, ∀ f ∈ i.frozen, K.Good f.2.val

/-- An open file in the two runs -/
structure OpenR (K : Ren) (f f' : OpenFile) : Prop where
  ct : f'.ct = f.ct
  nt : f'.nt = f.nt
  rest : f'.rest = f.rest
  env : ∃ Q : Token → Prop, Words K Q ∧ EnvR K Q f.env f'.env ∧ (∀ t, f.nt = some t → Q t) ∧
    ∀ t, LexOut.tok t ∈ f.rest → t.kind ≠ .COMMENT → Q t

/-- The results of the two runs -/
inductive BRes (K : Ren) {α : Type} : PR α → PR α → Prop
  | ok {a : α} {s s' : PS} : Btw K s s' → BRes K (.ok a s) (.ok a s')
  | err {s s' : PS} : Btw K s s' → BRes K (.err s) (.err s')
  | crash {c : PCrash} {s s' : PS} : Btw K s s' → BRes K (.crash c s) (.crash c s')

variable {K : Ren}

theorem Btw.of_sim {Q : Token → Prop} {s s' : PS} (h : Sim K Q s s') : Btw K s s' := by
  obtain ⟨h⟩ := h
  exact ⟨h.tabs, rfl, rfl, rfl, rfl, rfl, rfl, rfl, h.objs, h.infos⟩

theorem Btw.enter {Q : Token → Prop} {s s' : PS} (h : Btw K s s') {f f' : OpenFile} (h1 : f'.ct = f.ct)
    (h2 : f'.nt = f.nt) (h3 : f'.rest = f.rest) (hn : ∀ t, f.nt = some t → Q t)
    (hr : ∀ t, LexOut.tok t ∈ f.rest → t.kind ≠ .COMMENT → Q t) : Sim K Q (s.enter f) (s'.enter f') := by
  have : s'.enter f' = ren K (s.enter f) s'.tabs := by
    obtain ⟨_, _, _, _, _, _, _, _, _, _, _, _⟩ := s
    obtain ⟨_, _, _, _, _, _, _, _, _, _, _, _⟩ := s'
    unfold PS.enter ren
    dsimp only
    rw [h1, h2, h3]
    obtain ⟨-, a1, a2, a3, a4, a5, a6, a7, -, -⟩ := h
    dsimp only at a1 a2 a3 a4 a5 a6 a7
    rw [a1, a2, a3, a4, a5, a6, a7]
  rw [this]
  exact ⟨h.tabs, hn, hr, h.goodO, h.goodI⟩

theorem BRes.of_res {Q : Token → Prop} {α : Type} {x y : PR α} (h : ResR K Q Eq x y) : BRes K x y := by
  cases h with
  | ok h1 h2 => subst h1; exact .ok (.of_sim h2)
  | err h => exact .err (.of_sim h)
  | crash h => exact .crash (.of_sim h)

theorem BRes.bind {α β : Type} {x y : P α} {f g : α → P β} {s s' : PS} (h : BRes K (x s) (y s'))
    (hf : ∀ a t t', Btw K t t' → BRes K (f a t) (g a t')) : BRes K ((x >>= f) s) ((y >>= g) s') := by
  rw [bind_apply, bind_apply]
  generalize x s = a at h ⊢
  generalize y s' = b at h ⊢
  cases h with
  | ok h => exact hf _ _ _ h
  | err h => exact .err h
  | crash h => exact .crash h

theorem runTrlcFile_btw [K.Ok] {f f' : OpenFile} (hf : OpenR K f f') {s s' : PS} (h : Btw K s s') :
    BRes K (runTrlcFile f s) (runTrlcFile f' s') := by
  obtain ⟨Q, hQ, hE, hn, hr⟩ := hf.env
  rw [show runTrlcFile f s = P.tryCatch (parseTrlcFile f.env) (pure false) (s.enter f) from rfl,
    show runTrlcFile f' s' = P.tryCatch (parseTrlcFile f'.env) (pure false) (s'.enter f') from rfl]
  exact .of_res ((sims_tryCatch sims_parseTrlcFile (sims_pure' rfl)).sim _ _ (h.enter hf.ct hf.nt hf.rest hn hr))

theorem runRslFile_btw [K.Ok] {rx : Regex} {f f' : OpenFile} (hf : OpenR K f f') {s s' : PS} (h : Btw K s s') :
    BRes K (runRslFile rx f s) (runRslFile rx f' s') := by
  obtain ⟨Q, hQ, hE, hn, hr⟩ := hf.env
  rw [show runRslFile rx f s = P.tryCatch (parseRslFile f.env rx) (pure false) (s.enter f) from rfl,
    show runRslFile rx f' s' = P.tryCatch (parseRslFile f'.env rx) (pure false) (s'.enter f') from rfl]
  exact .of_res ((sims_tryCatch sims_parseRslFile (sims_pure' rfl)).sim _ _ (h.enter hf.ct hf.nt hf.rest hn hr))

theorem runTrlcFiles_btw [K.Ok] {fs fs' : List OpenFile} (hf : List.Forall₂ (OpenR K) fs fs') :
    ∀ {s s' : PS}, Btw K s s' → BRes K (runTrlcFiles fs s) (runTrlcFiles fs' s') := by
  induction hf with
  | nil => intro s s' h; exact .ok h
  | cons h1 _ ih =>
    intro s s' h
    unfold runTrlcFiles
    exact (runTrlcFile_btw h1 h).bind fun a t t' ht => (ih ht).bind fun b u u' hu => .ok hu

theorem runRslFiles_btw [K.Ok] {rx : Regex} {fs fs' : List OpenFile} (hf : List.Forall₂ (OpenR K) fs fs') :
    ∀ {s s' : PS}, Btw K s s' → BRes K (runRslFiles rx fs s) (runRslFiles rx fs' s') := by
  induction hf with
  | nil => intro s s' h; exact .ok h
  | cons h1 _ ih =>
    intro s s' h
    unfold runRslFiles
    exact (runRslFile_btw h1 h).bind fun a t t' ht => (ih ht).bind fun b u u' hu => .ok hu

/-! ## References -/

section
variable {s s' : PS} (h : Btw K s s')
include h

theorem btw_tab (p : Nat) : TabR K (s.tab p) (s'.tab (K.num p)) := h.tabs.tab p

theorem btw_obj (o : Nat) : s'.objs[o]? = (s.objs[o]?).map K.obj := by rw [h.objs, List.getElem?_map]

theorem btw_object {p : Nat} {n : List Char} (hn : K.Seen n) :
    (s'.tab (K.num p)).lookupDirect n (some fun e => decide (e.cls = clsObject)) false =
      (s.tab p).lookupDirect n (some fun e => decide (e.cls = clsObject)) false := by
  rw [((btw_tab h p).agree hn).lookupDirect subR_cls]
  cases hl : (s.tab p).lookupDirect n (some fun e => decide (e.cls = clsObject)) false with
  | error e => rfl
  | ok e =>
    have hc : e.cls ≠ clsPackage := by
      rw [of_decide_eq_true (lookup_sub (T := s.tab p) (n := n) hl)]; decide
    simp only [Except.map, ent_self hc]

theorem btw_resolveRef (τ : Ty) (p : Nat) {n : List Char} (hn : K.Seen n) :
    s'.resolveRef τ (K.num p) n = s.resolveRef τ p n := by
  unfold PS.resolveRef
  rw [btw_object h hn, h.decls]
  cases (s.tab p).lookupDirect n (some fun e => decide (e.cls = clsObject)) false with
  | error e => rfl
  | ok e =>
    dsimp only
    rw [btw_obj h]
    cases s.objs[e.id]? <;> rfl

theorem btw_resolveMRef (r : MRef) (hn : K.Seen r.name) : s'.resolveMRef (K.mref r) = s.resolveMRef r := by
  unfold PS.resolveMRef Ren.mref
  dsimp only
  rw [btw_object h hn]

theorem btw_resolveMRefs (rs : List MRef) (hn : ∀ r ∈ rs, K.Seen r.name) :
    s'.resolveMRefs (rs.map K.mref) = s.resolveMRefs rs := by
  induction rs with
  | nil => rfl
  | cons r rs ih =>
    rw [List.map_cons]
    unfold PS.resolveMRefs
    rw [btw_resolveMRef h r (hn r (List.mem_cons_self ..)), ih fun x hx => hn x (List.mem_cons_of_mem _ hx)]

mutual
theorem btw_resolveVal : ∀ v : PVal, K.Good v → s'.resolveVal (K.val v) = s.resolveVal v
  | .inull, _ => rfl
  | .bool _, _ => rfl
  | .int _, _ => rfl
  | .dec _, _ => rfl
  | .str _, _ => rfl
  | .markup v refs, hg => by
    unfold Ren.val PS.resolveVal
    rw [btw_resolveMRefs h refs hg]
  | .enum _ _, _ => rfl
  | .neg e, hg => by
    unfold Ren.val PS.resolveVal
    rw [btw_resolveVal e hg]
  | .pos e, hg => by
    unfold Ren.val PS.resolveVal
    rw [btw_resolveVal e hg]
  | .arr t es, hg => by
    unfold Ren.val PS.resolveVal
    rw [btw_resolveVals es hg]
  | .tup t fs, hg => by
    unfold Ren.val PS.resolveVal
    rw [btw_resolveFields fs hg]
  | .ref τ p n, hg => by
    unfold Ren.val PS.resolveVal
    rw [btw_resolveRef h τ p hg]
theorem btw_resolveVals : ∀ es : List PVal, K.Goods es → s'.resolveVals (K.vals es) = s.resolveVals es
  | [], _ => rfl
  | e :: es, hg => by
    unfold Ren.vals PS.resolveVals
    rw [btw_resolveVal e hg.1, btw_resolveVals es hg.2]
theorem btw_resolveFields : ∀ fs : List (String × PVal), K.GoodFs fs → s'.resolveFields (K.flds fs) = s.resolveFields fs
  | [], _ => rfl
  | f :: fs, hg => by
    unfold Ren.flds PS.resolveFields
    rw [btw_resolveField f hg.1, btw_resolveFields fs hg.2]
theorem btw_resolveField : ∀ f : String × PVal, K.GoodF f → s'.resolveField (K.fld f) = s.resolveField f
  | (n, e), hg => by
    unfold Ren.fld PS.resolveField
    rw [btw_resolveVal e hg]
end

theorem btw_resolveNodes (fs : List (String × VNode)) (hg : ∀ f ∈ fs, K.Good f.2.val) :
    s'.resolveNodes (fs.map K.entry) = s.resolveNodes fs := by
  induction fs with
  | nil => rfl
  | cons f fs ih =>
    obtain ⟨n, v⟩ := f
    rw [List.map_cons, show K.entry (n, v) = (n, ⟨v.id, K.val v.val⟩) from rfl]
    unfold PS.resolveNodes
    rw [btw_resolveVal h v.val (hg (n, v) (List.mem_cons_self ..)), ih fun x hx => hg x (List.mem_cons_of_mem _ hx)]

theorem btw_fields (o : Nat) (ob : Obj) (ho : s.objs[o]? = some ob) :
    s'.resolveNodes (K.obj ob).fields = s.resolveNodes ob.fields :=
  btw_resolveNodes h _ (h.goodO ob (List.mem_of_getElem? ho))

theorem btw_resolveOne : s'.resolveOne = s.resolveOne := by
  funext o
  unfold PS.resolveOne
  rw [btw_obj h]
  cases ho : s.objs[o]? with
  | none => rfl
  | some ob =>
    dsimp only [Option.map_some]
    rw [btw_fields h o ob ho]

theorem btw_heap : s'.heap = s.heap := by
  funext o
  unfold PS.heap
  rw [btw_obj h]
  cases ho : s.objs[o]? with
  | none => rfl
  | some ob =>
    dsimp only [Option.map_some]
    rw [btw_fields h o ob ho]

theorem btw_performOne {C : CheckTab} {env : EvEnv} {L : Locs} : performOne s' C env L = performOne s C env L := by
  funext o
  unfold performOne
  rw [btw_obj h, h.decls]
  cases s.objs[o]? with
  | none => rfl
  | some ob =>
    cases env.heap o <;> rfl

theorem btw_performObjects {C : CheckTab} {env : EvEnv} {L : Locs} (os : List Nat) :
    ∀ ok, performObjects s' C env L os ok = performObjects s C env L os ok := by
  induction os with
  | nil => intro ok; rfl
  | cons o os ih =>
    intro ok
    unfold performObjects
    rw [btw_performOne h]
    congr 1
    funext b
    exact ih _

end

/-! ## The order of the objects -/

/-- The two global tables: the second one has additional packages. -/
structure Globs (K : Ren) : Prop where
  tab : PkgTab K.g
  tab' : PkgTab K.g'
  old : ∀ k e, K.g.own.get k = some e → K.g'.own.get k = some (K.ent e)
  new : ∀ k e, K.g.own.get k = none → K.g'.own.get k = some e → ∀ i, K.num i ≠ e.id

theorem get_iff {f : Frame} (hn : (f.map Prod.fst).Nodup) (k : List Char) (e : Ent) :
    f.get k = some e ↔ (k, e) ∈ f := by
  unfold Frame.get
  induction f with
  | nil => simp
  | cons x f ih =>
    rw [List.map_cons, List.nodup_cons] at hn
    rw [List.find?_cons]
    by_cases hk : x.1 = k
    · simp only [hk, decide_true, Option.map_some]
      constructor
      · intro h
        rw [← Option.some.inj h, ← hk]
        exact List.mem_cons_self ..
      · intro h
        rcases List.mem_cons.1 h with h | h
        · rw [← h]
        · exact absurd (List.mem_map_of_mem (f := Prod.fst) h) (by rw [← hk] at *; exact hn.1)
    · simp only [hk, decide_false]
      rw [ih hn.2]
      constructor
      · exact fun h => List.mem_cons_of_mem _ h
      · intro h
        rcases List.mem_cons.1 h with h | h
        · exact absurd (by rw [← h]) hk
        · exact h

theorem values_flat {T : STab} (hp : T.parents = []) (c : Nat) :
    T.values c = ((pySort (fun a b => pyLe a.1 b.1) T.own).map Prod.snd).filter fun e => e.cls == c := by
  unfold STab.values
  rw [hp]
  simp only [List.reverse_nil, List.nil_append, List.flatMap_cons, List.flatMap_nil, List.append_nil]

theorem flatMap_filter_of_nil {α β : Type} {f : α → List β} {p : α → Bool} {l : List α}
    (h : ∀ x ∈ l, p x = false → f x = []) : l.flatMap f = (l.filter p).flatMap f := by
  induction l with
  | nil => rfl
  | cons x l ih =>
    rw [List.flatMap_cons, ih fun y hy => h y (List.mem_cons_of_mem _ hy), List.filter_cons]
    cases hp : p x with
    | true => rfl
    | false => rw [h x (List.mem_cons_self ..) hp]; rfl

/-- the entries of the second table that are in the first one, in the order of their keys -/
theorem sorted_old (hG : Globs K) :
    (pySort (fun a b => pyLe a.1 b.1) K.g'.own).filter (fun x => (K.g.own.get x.1).isSome) =
      (pySort (fun a b => pyLe a.1 b.1) K.g.own).map fun x => (x.1, K.ent x.2) := by
  have tot : ∀ a b : List Char × Ent, pyLe a.1 b.1 = true ∨ pyLe b.1 a.1 = true := fun a b => pyLe_total a.1 b.1
  have tr : ∀ a b c : List Char × Ent, pyLe a.1 b.1 = true → pyLe b.1 c.1 = true → pyLe a.1 c.1 = true :=
    fun a b c => pyLe_trans
  have n1 : K.g.own.Nodup := List.Nodup.of_map _ hG.tab.nodup
  have n2 : K.g'.own.Nodup := List.Nodup.of_map _ hG.tab'.nodup
  have p1 := pySort_perm (fun a b : List Char × Ent => pyLe a.1 b.1) K.g.own
  have p2 := pySort_perm (fun a b : List Char × Ent => pyLe a.1 b.1) K.g'.own
  have mem : ∀ x : List Char × Ent,
      x ∈ (pySort (fun a b => pyLe a.1 b.1) K.g'.own).filter (fun x => (K.g.own.get x.1).isSome) ↔
      x ∈ (pySort (fun a b => pyLe a.1 b.1) K.g.own).map fun x => (x.1, K.ent x.2) := by
    rintro ⟨k, e⟩
    rw [List.mem_filter, p2.mem_iff, List.mem_map]
    constructor
    · rintro ⟨h1, h2⟩
      obtain ⟨e0, h3⟩ := Option.isSome_iff_exists.1 h2
      refine ⟨(k, e0), p1.mem_iff.2 ((get_iff hG.tab.nodup _ _).1 h3), ?_⟩
      have := (hG.old k e0 h3).symm.trans ((get_iff hG.tab'.nodup _ _).2 h1)
      rw [← Option.some.inj this]
    · rintro ⟨⟨k0, e0⟩, h1, h2⟩
      cases h2
      have h3 := (get_iff hG.tab.nodup _ _).2 (p1.mem_iff.1 h1)
      exact ⟨(get_iff hG.tab'.nodup _ _).1 (hG.old _ _ h3), by dsimp only; rw [h3]; rfl⟩
  refine List.Perm.eq_of_pairwise ?_ ((pySort_sorted tot tr _).filter _) ?_ ?_ (le := fun a b => pyLe a.1 b.1 = true)
  · rintro ⟨k, e⟩ ⟨k', e'⟩ h1 h2 a b
    have hk : k = k' := pyLe_antisymm a b
    subst hk
    have h1 := (get_iff hG.tab'.nodup _ _).2 (p2.mem_iff.1 (List.mem_filter.1 h1).1)
    have h2 := (get_iff hG.tab'.nodup _ _).2 (p2.mem_iff.1 (List.mem_filter.1 ((mem _).2 h2)).1)
    rw [Option.some.inj (h1.symm.trans h2)]
  · rw [List.pairwise_map]
    exact pySort_sorted tot tr _
  · refine (List.perm_ext_iff_of_nodup ?_ ?_).2 mem
    · exact (p2.symm.nodup n2).filter _
    · refine List.Nodup.of_map Prod.fst ?_
      rw [List.map_map]
      exact ((p1.map Prod.fst).symm.nodup hG.tab.nodup)

theorem btw_visited {s s' : PS} (h : Btw K s s') (hG : Globs K) : s'.visited K.g' = s.visited K.g := by
  unfold PS.visited
  rw [values_flat hG.tab.glob.parents, values_flat hG.tab'.glob.parents]
  have key : ∀ p, (s'.tab (K.num p)).values clsObject = (s.tab p).values clsObject := by
    intro p
    have := btw_tab h p
    rw [values_flat this.parents.1, values_flat this.parents.2, this.own]
  rw [List.filter_map, List.flatMap_map, List.filter_map, List.flatMap_map]
  rw [flatMap_filter_of_nil (p := fun x : List Char × Ent => (K.g.own.get x.1).isSome), List.filter_comm, sorted_old hG,
    List.filter_map, List.flatMap_map]
  · have e1 : ((fun x : List Char × Ent => ((fun e : Ent => e.cls == clsPackage) ∘ Prod.snd) x) ∘ fun x : List Char × Ent => (x.1, K.ent x.2)) =
        (fun e : Ent => e.cls == clsPackage) ∘ Prod.snd := by
      funext x
      simp only [Function.comp, ent_cls]
    rw [show ((fun e : Ent => e.cls == clsPackage) ∘ Prod.snd) ∘ (fun x : List Char × Ent => (x.1, K.ent x.2)) =
      (fun e : Ent => e.cls == clsPackage) ∘ Prod.snd from e1]
    refine List.flatMap_congr fun x hx => ?_
    have hc : x.2.cls = clsPackage := by simpa using (List.mem_filter.1 hx).2
    dsimp only
    rw [ent_id hc, key]
  · rintro ⟨k, e⟩ hx hn
    have hx := List.mem_filter.1 hx
    have hm := (get_iff hG.tab'.nodup _ _).2 ((pySort_perm _ _).mem_iff.1 hx.1)
    have hnew := hG.new k e (by simpa using hn) hm
    have : (s'.tab e.id).values clsObject = [] := by
      unfold PS.tab
      cases ht : s'.tabs[e.id]? with
      | none => exact rfl
      | some T =>
        have := h.tabs.rest e.id hnew T ht
        rw [Option.getD_some, values_flat this.2, this.1]
        rfl
    dsimp only
    rw [this]
    rfl

/-- The ends of the two runs -/
structure EndR (K : Ren) (r r' : ProcOut) : Prop where
  out : r'.out = r.out
  calls : r'.calls = r.calls
  btw : Btw K r.state r'.state

/-- The files of the two runs -/
structure FilesR (K : Ren) (recover : Bool) (R R' : Finset PNode) (ls ls' : List Loaded) : Prop where
  rsl : List.Forall₂ (OpenR K) ((rslFiles R ls).map (·.openFile K.g recover))
    ((rslFiles R' ls').map (·.openFile K.g' recover))
  cycle : (parseRslOrder R' (ls'.map (·.cu))).2 = (parseRslOrder R (ls.map (·.cu))).2
  trlc : List.Forall₂ (OpenR K) ((trlcFiles R ls).map (·.openFile K.g recover))
    ((trlcFiles R' ls').map (·.openFile K.g' recover))

variable {o : Options} {X : Outside} {R R' : Finset PNode} {ls ls' : List Loaded}

theorem Btw.append {s s' : PS} (h : Btw K s s') (es : List PErr) :
    Btw K { s with errs := s.errs ++ es } { s' with errs := s'.errs ++ es } :=
  ⟨h.tabs, h.decls, h.infos, h.seps, h.objs, h.nid, by rw [h.errs], h.checks, h.goodO, h.goodI⟩

theorem runRsl_btw [K.Ok] (hf : FilesR K o.recover R R' ls ls') {s s' : PS} (h : Btw K s s') :
    BRes K (runRsl K.g o.recover X.rx R ls s) (runRsl K.g' o.recover X.rx R' ls' s') := by
  unfold runRsl
  refine (runRslFiles_btw hf.rsl h).bind fun a t t' ht => ?_
  rw [hf.cycle]
  split
  · exact BRes.bind (.ok (ht.append [.other 21])) fun _ u u' hu => .ok hu
  · exact .ok ht

theorem finish_btw [K.Ok] (hG : Globs K) (hf : FilesR K o.recover R R' ls ls') {ok : Bool} {calls : List MHCall} {s s' : PS}
    (h : Btw K s s') : EndR K (finish o X K.g R ls ok calls s) (finish o X K.g' R' ls' ok calls s') := by
  unfold finish
  have h1 : BRes K (runTrlc K.g o.recover R ls s) (runTrlc K.g' o.recover R' ls' s') := runTrlcFiles_btw hf.trlc h
  generalize runTrlc K.g o.recover R ls s = a at h1 ⊢
  generalize runTrlc K.g' o.recover R' ls' s' = b at h1 ⊢
  cases h1 with
  | crash h => exact ⟨rfl, rfl, h⟩
  | err h => exact ⟨rfl, rfl, h⟩
  | @ok a t t' h =>
    cases a with
    | false => exact ⟨rfl, rfl, h⟩
    | true =>
      have hr : t'.resolveAll K.g' = t.resolveAll K.g := by
        unfold PS.resolveAll
        rw [btw_visited h hG, btw_resolveOne h]
      dsimp only
      rw [hr]
      have h2 := h.append (t.resolveAll K.g)
      split
      · exact ⟨rfl, rfl, h2⟩
      · split
        · exact ⟨rfl, rfl, h2⟩
        · have h3 : performChecks { t' with errs := t'.errs ++ t.resolveAll K.g } K.g' t'.checks X.rx.search X.locs =
              performChecks { t with errs := t.errs ++ t.resolveAll K.g } K.g t.checks X.rx.search X.locs := by
            unfold performChecks
            rw [btw_visited h2 hG, btw_heap h2, btw_performObjects h2, h.checks]
          rw [h3]
          generalize performChecks { t with errs := t.errs ++ t.resolveAll K.g } K.g t.checks X.rx.search X.locs = r
          split <;> exact ⟨rfl, rfl, h2⟩

theorem analyse_btw [K.Ok] (hG : Globs K) (hf : FilesR K o.recover R R' ls ls') (hl : o.lint = false) {ok : Bool} {s s' : PS}
    (h : Btw K s s') : EndR K (analyse o X K.g R ls ok s) (analyse o X K.g' R' ls' ok s') := by
  unfold analyse
  have h1 := runRsl_btw (X := X) hf h
  generalize runRsl K.g o.recover X.rx R ls s = a at h1 ⊢
  generalize runRsl K.g' o.recover X.rx R' ls' s' = b at h1 ⊢
  cases h1 with
  | crash h => exact ⟨rfl, rfl, h⟩
  | err h => exact ⟨rfl, rfl, h⟩
  | @ok a t t' h =>
    dsimp only
    split
    · exact ⟨rfl, rfl, h⟩
    · rw [hl]
      simp only [Bool.false_and, Bool.and_true, Bool.false_eq_true, if_false]
      split
      · exact ⟨rfl, rfl, h⟩
      · exact finish_btw hG hf h

end Verif.Lemmas.Rename
