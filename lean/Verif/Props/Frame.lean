import Verif.Lemmas.Static
/-!
# C51: evaluation depends only on the components an expression mentions
-/
set_option linter.unusedSectionVars false
namespace Verif.Props
open Verif.Model Verif.Lemmas

mutual
/-- `n` occurs in the expression as the name of a component: as a name or as the source of a
quantifier, and is not the variable of an enclosing quantifier. -/
def Mentions (n : String) : Expr → Prop
  | .null | .bool _ | .int _ | .dec _ | .str _ | .enum _ _ => False
  | .name m _ => m = n
  | .unary _ _ e => Mentions n e
  | .binary _ _ l r => Mentions n l ∨ Mentions n r
  | .logic _ l r => Mentions n l ∨ Mentions n r
  | .field p _ _ => Mentions n p
  | .range e lo up => Mentions n e ∨ Mentions n lo ∨ Mentions n up
  | .oneof cs => MentionsS n cs
  | .cond _ as => MentionsA n as
  | .quant _ x src body => src = n ∨ (x ≠ n ∧ Mentions n body)
/-- `n` occurs in one of the expressions -/
def MentionsS (n : String) : Exprs → Prop
  | .nil => False
  | .cons e es => Mentions n e ∨ MentionsS n es
/-- `n` occurs in one of the actions -/
def MentionsA (n : String) : Acts → Prop
  | .els e => Mentions n e
  | .act c e rest => Mentions n c ∨ Mentions n e ∨ MentionsA n rest
end

private theorem quantLoop_congr (u : Bool) (f g : FExpr → Ev TV) (es : List FExpr)
    (h : ∀ b, f b = g b) : quantLoop u f es = quantLoop u g es := by
  have : f = g := funext h
  rw [this]

mutual
/-- **C51**: two contexts (the values of the components of two objects) that agree on the
components an expression mentions give the same outcome: the same value, the same error or the
same internal exception. -/
theorem C51_mentioned_only (env : EvEnv) (c c' : List (String × FExpr)) :
    (e : Expr) → (∀ n, Mentions n e → c.lookup n = c'.lookup n) →
      e.eval env (some c) = e.eval env (some c')
  | .null, _ | .bool _, _ | .int _, _ | .dec _, _ | .str _, _ | .enum _ _, _ => rfl
  | .name m _, h => by
    have := h m rfl
    simp only [Expr.eval, this]
  | .unary _ _ e, h => by
    simp only [Expr.eval, C51_mentioned_only env c c' e h]
  | .binary _ _ l r, h => by
    simp only [Expr.eval, C51_mentioned_only env c c' l (fun n hn => h n (Or.inl hn)),
      C51_mentioned_only env c c' r (fun n hn => h n (Or.inr hn))]
  | .logic _ l r, h => by
    simp only [Expr.eval, C51_mentioned_only env c c' l (fun n hn => h n (Or.inl hn)),
      C51_mentioned_only env c c' r (fun n hn => h n (Or.inr hn))]
  | .field p _ _, h => by
    simp only [Expr.eval, C51_mentioned_only env c c' p h]
  | .range e lo up, h => by
    simp only [Expr.eval, C51_mentioned_only env c c' e (fun n hn => h n (Or.inl hn)),
      C51_mentioned_only env c c' lo (fun n hn => h n (Or.inr (Or.inl hn))),
      C51_mentioned_only env c c' up (fun n hn => h n (Or.inr (Or.inr hn)))]
  | .oneof cs, h => by
    simp only [Expr.eval, mentioned_onlyS env c c' cs h]
  | .cond _ as, h => by
    simp only [Expr.eval, mentioned_onlyA env c c' as h]
  | .quant u x src body, h => by
    have hs := h src (Or.inl rfl)
    simp only [Expr.eval, hs]
    have : ∀ b, body.eval env (some ((x, b) :: c)) = body.eval env (some ((x, b) :: c')) := by
      intro b
      refine C51_mentioned_only env _ _ body ?_
      intro n hn
      by_cases hx : x = n
      · subst hx; simp
      · have : (n == x) = false := by rw [beq_eq_false_iff_ne]; exact fun h => hx h.symm
        simp only [List.lookup, this]
        exact h n (Or.inr ⟨hx, hn⟩)
    cases c'.lookup src with
    | none => rfl
    | some fe =>
      cases fe <;> simp only
      exact quantLoop_congr u _ _ _ this
private theorem mentioned_onlyS (env : EvEnv) (c c' : List (String × FExpr)) :
    (es : Exprs) → (∀ n, MentionsS n es → c.lookup n = c'.lookup n) →
      es.eval env (some c) = es.eval env (some c')
  | .nil, _ => rfl
  | .cons e es, h => by
    simp only [Exprs.eval, C51_mentioned_only env c c' e (fun n hn => h n (Or.inl hn)),
      mentioned_onlyS env c c' es (fun n hn => h n (Or.inr hn))]
private theorem mentioned_onlyA (env : EvEnv) (c c' : List (String × FExpr)) :
    (as : Acts) → (∀ n, MentionsA n as → c.lookup n = c'.lookup n) →
      as.eval env (some c) = as.eval env (some c')
  | .els e, h => by
    simp only [Acts.eval, C51_mentioned_only env c c' e h]
  | .act a e rest, h => by
    simp only [Acts.eval, C51_mentioned_only env c c' a (fun n hn => h n (Or.inl hn)),
      C51_mentioned_only env c c' e (fun n hn => h n (Or.inr (Or.inl hn))),
      mentioned_onlyA env c c' rest (fun n hn => h n (Or.inr (Or.inr hn)))]
end

/-- Two objects that differ in a component which `x > 1` does not mention. -/
example (env : EvEnv) (a b : FExpr) :
    (Expr.binary (some .bool) .gt (.name "x" .int) (.int 1)).eval env
        (some [("x", .int 4), ("y", a)]) =
      (Expr.binary (some .bool) .gt (.name "x" .int) (.int 1)).eval env
        (some [("x", .int 4), ("y", b)]) := by
  refine C51_mentioned_only env _ _ _ ?_
  intro n hn
  simp only [Mentions, or_false] at hn
  subst hn
  rfl

/-- An expression without components (a static expression: bounds of exponents, arguments of
`matches`) has the same outcome in every context. -/
theorem C51_no_names (env : EvEnv) (e : Expr) (h : ∀ n, ¬ Mentions n e)
    (c c' : List (String × FExpr)) : e.eval env (some c) = e.eval env (some c') :=
  C51_mentioned_only env c c' e fun n hn => absurd hn (h n)

/-! ## Record objects that cannot be reached -/

mutual
/-- all references in a value expression are to objects in `S` -/
def RefsIn (S : Nat → Prop) : FExpr → Prop
  | .neg e | .pos e => RefsIn S e
  | .arr _ es => RefsInL S es
  | .tup _ fs => RefsInF S fs
  | .ref _ target => ∀ o, target = some o → S o
  | _ => True
/-- all references in a list are to objects in `S` -/
def RefsInL (S : Nat → Prop) : List FExpr → Prop
  | [] => True
  | e :: es => RefsIn S e ∧ RefsInL S es
/-- all references in the fields of a tuple are to objects in `S` -/
def RefsInF (S : Nat → Prop) : List (String × FExpr) → Prop
  | [] => True
  | f :: fs => RefsInP S f ∧ RefsInF S fs
/-- all references in one field are to objects in `S` -/
def RefsInP (S : Nat → Prop) : String × FExpr → Prop
  | (_, e) => RefsIn S e
end

/-- `S` is closed under following references. -/
def Closed (S : Nat → Prop) (heap : Nat → Option Fields) : Prop :=
  ∀ o fs, S o → heap o = some fs → ∀ f ∈ fs, RefsIn S f.2.expr

/-- A record dictionary whose references are all in `S`. -/
private def RecIn (S : Nat → Prop) (fs : Fields) : Prop := ∀ f ∈ fs, RefsIn S f.2.expr

mutual
/-- all record dictionaries in a value have their references in `S` -/
private def ValIn (S : Nat → Prop) : Val → Prop
  | .arr es => ValInL S es
  | .tup fs => ValInF S fs
  | .recv fs => RecIn S fs
  | _ => True
private def ValInL (S : Nat → Prop) : List (Option Ty × Val) → Prop
  | [] => True
  | e :: es => ValInT S e ∧ ValInL S es
private def ValInT (S : Nat → Prop) : Option Ty × Val → Prop
  | (_, v) => ValIn S v
private def ValInF (S : Nat → Prop) : List (String × Option Ty × Val) → Prop
  | [] => True
  | e :: es => ValInG S e ∧ ValInF S es
private def ValInG (S : Nat → Prop) : String × Option Ty × Val → Prop
  | (_, v) => ValInT S v
end

private theorem valIn_simple {S} {v : Val} (h : Simple v) : ValIn S v := by
  cases v <;> simp_all [Simple, ValIn]

/-- same outcome, and a value satisfies `P` -/
private def Same {α} (P : α → Prop) (x y : Ev α) : Prop := x = y ∧ ∀ v, x = .ok v → P v

private theorem same_bind {α β} {P : α → Prop} {Q : β → Prop} {x y : Ev α} {f g : α → Ev β}
    (h : Same P x y) (hf : ∀ v, P v → Same Q (f v) (g v)) : Same Q (x.bind f) (y.bind g) := by
  obtain ⟨rfl, hx⟩ := h
  cases x with
  | ok a => exact hf a (hx a rfl)
  | err e => exact ⟨rfl, by simp [Ev.bind]⟩
  | crash e => exact ⟨rfl, by simp [Ev.bind]⟩

private theorem same_mk {P : TV → Prop} {t v} (h : P ⟨t, v⟩) : Same P (mkValue t v) (mkValue t v) := by
  refine ⟨rfl, ?_⟩
  intro w hw
  rw [mkValue_eq_ok] at hw
  obtain ⟨-, rfl⟩ := hw
  exact h

private theorem same_simple {S} {x : Ev TV} (h : ∀ w, x = .ok w → Simple w.val) :
    Same (fun w => ValIn S w.val) x x := ⟨rfl, fun w hw => valIn_simple (h w hw)⟩

section
variable {S : Nat → Prop} {h1 h2 : Nat → Option Fields} (hS : ∀ o, S o → h1 o = h2 o)
  (hc : Closed S h1)
include hS hc

mutual
private theorem feval_same : (fe : FExpr) → RefsIn S fe →
    Same (fun w => ValIn S w.val) (fe.eval h1) (fe.eval h2)
  | .inull, _ | .bool _, _ | .int _, _ | .dec _, _ | .str _, _ | .markup _, _ | .enum _ _, _ => by
    simp only [FExpr.eval]; exact same_mk (by simp [ValIn])
  | .neg e, h => by
    simp only [FExpr.eval]
    exact same_bind (feval_same e h) fun v _ => same_simple fun w hw => unary_simple hw
  | .pos e, h => by
    simp only [FExpr.eval]
    exact same_bind (feval_same e h) fun v _ => same_simple fun w hw => unary_simple hw
  | .arr t es, h => by
    simp only [FExpr.eval]
    exact same_bind (elems_same es h) fun v hv => same_mk (by simpa [ValIn] using hv)
  | .tup t fs, h => by
    simp only [FExpr.eval]
    exact same_bind (fields_same fs h) fun v hv => same_mk (by simpa [ValIn] using hv)
  | .ref t none, h => ⟨rfl, by simp [FExpr.eval]⟩
  | .ref t (some o), h => by
    have ho : S o := h o rfl
    simp only [FExpr.eval, ← hS o ho]
    cases e : h1 o with
    | none => exact ⟨rfl, by simp⟩
    | some fs => exact same_mk (by simp only [ValIn]; exact hc o fs ho e)
private theorem elems_same : (es : List FExpr) → RefsInL S es →
    Same (ValInL S) (evalElems h1 es) (evalElems h2 es)
  | [], _ => ⟨rfl, by rintro v ⟨⟩; simp [ValInL]⟩
  | e :: es, h => by
    simp only [evalElems]
    refine same_bind (feval_same e h.1) fun v hv => same_bind (elems_same es h.2) fun vs hvs => ⟨rfl, ?_⟩
    rintro w ⟨⟩
    exact ⟨hv, hvs⟩
private theorem fields_same : (fs : List (String × FExpr)) → RefsInF S fs →
    Same (ValInF S) (evalFields h1 fs) (evalFields h2 fs)
  | [], _ => ⟨rfl, by rintro v ⟨⟩; simp [ValInF]⟩
  | f :: fs, h => by
    simp only [evalFields]
    refine same_bind (field_same f h.1) fun v hv => same_bind (fields_same fs h.2) fun vs hvs => ⟨rfl, ?_⟩
    rintro w ⟨⟩
    exact ⟨hv, hvs⟩
private theorem field_same : (f : String × FExpr) → RefsInP S f →
    Same (ValInG S) (evalField h1 f) (evalField h2 f)
  | (n, e), h => by
    simp only [evalField]
    refine same_bind (feval_same e h) fun v hv => ⟨rfl, ?_⟩
    rintro w ⟨⟩
    exact hv
end
end

private theorem valInL_get {S : Nat → Prop} {es : List (Option Ty × Val)} (h : ValInL S es) {i : Nat}
    {e : Option Ty × Val} (he : es[i]? = some e) : ValIn S e.2 := by
  induction es generalizing i with
  | nil => simp at he
  | cons x es ih =>
    cases i with
    | zero =>
      simp only [List.getElem?_cons_zero, Option.some.injEq] at he; subst he
      obtain ⟨h, -⟩ := h; obtain ⟨t, v⟩ := x; exact h
    | succ i => exact ih h.2 (by simpa using he)

private theorem valInF_lookup {S : Nat → Prop} {fs : List (String × Option Ty × Val)}
    (h : ValInF S fs) {n : String} {v : Option Ty × Val} (hv : fs.lookup n = some v) :
    ValIn S v.2 := by
  induction fs with
  | nil => simp at hv
  | cons x fs ih =>
    obtain ⟨k, y⟩ := x
    rw [List.lookup_cons] at hv
    cases hk : n == k <;> simp only [hk] at hv
    · exact ih h.2 hv
    · cases hv; obtain ⟨h, -⟩ := h; obtain ⟨t, v⟩ := v; exact h

private theorem lookup_mem {α} {l : List (String × α)} {n : String} {a : α}
    (h : l.lookup n = some a) : (n, a) ∈ l := by
  induction l with
  | nil => simp at h
  | cons x l ih =>
    obtain ⟨k, y⟩ := x
    rw [List.lookup_cons] at h
    cases hk : n == k <;> simp only [hk] at h
    · exact List.mem_cons_of_mem _ (ih h)
    · cases h; rw [beq_iff_eq] at hk; subst hk; exact List.mem_cons_self

private theorem refsInL_mem {S : Nat → Prop} {es : List FExpr} (h : RefsInL S es) :
    ∀ e ∈ es, RefsIn S e := by
  induction es with
  | nil => simp
  | cons x es ih =>
    intro e he
    rcases List.mem_cons.1 he with rfl | he
    · exact h.1
    · exact ih h.2 e he

private theorem binaryOp_in {S : Nat → Prop} {rx op t} {l r w : TV} (hl : ValIn S l.val)
    (h : binaryOp rx op t l r = .ok w) : ValIn S w.val := by
  by_cases hi : op = .index
  · subst hi
    simp only [binaryOp, indexOp] at h
    split at h
    · next es i h1 _ =>
      rw [h1] at hl
      repeat' split at h
      all_goals first
        | (cases h; done)
        | (rw [mkValue_eq_ok] at h; obtain ⟨-, rfl⟩ := h; exact valInL_get hl ‹_›)
    · cases h
  · refine valIn_simple ?_
    cases op
    case index => exact absurd rfl hi
    case plus =>
      simp only [binaryOp] at h
      split at h
      · rw [mkValue_eq_ok] at h; obtain ⟨-, rfl⟩ := h; trivial
      · exact arith_simple h
    case minus => exact arith_simple h
    case times => exact arith_simple h
    all_goals
      simp only [binaryOp] at h
      repeat' split at h
      all_goals first
        | (cases h; done)
        | (rw [mkValue_eq_ok] at h; obtain ⟨-, rfl⟩ := h; trivial)

private theorem quant_same {S : Nat → Prop} (u : Bool) (f g : FExpr → Ev TV) (es : List FExpr)
    (h : ∀ b ∈ es, Same (fun w : TV => ValIn S w.val) (f b) (g b)) :
    Same (fun w : TV => ValIn S w.val) (quantLoop u f es) (quantLoop u g es) := by
  induction es with
  | nil => exact same_mk (by simp [ValIn])
  | cons b bs ih =>
    simp only [quantLoop]
    refine same_bind (h b List.mem_cons_self) fun v hv => ?_
    cases hv' : v.val <;> simp only
    case bool x =>
      split
      · exact same_mk (by simp [ValIn])
      · split
        · exact same_mk (by simp [ValIn])
        · exact ih fun b hb => h b (List.mem_cons_of_mem _ hb)
    all_goals exact ⟨rfl, by simp⟩

/-- every value in the context has its references in `S` -/
private def CtxIn (S : Nat → Prop) (c : List (String × FExpr)) : Prop :=
  ∀ n fe, c.lookup n = some fe → RefsIn S fe

section
variable {S : Nat → Prop} {h1 h2 : Nat → Option Fields} (rx : List Char → List Char → Bool)
  (hS : ∀ o, S o → h1 o = h2 o) (hcl : Closed S h1)
include hS hcl

mutual
private theorem eval_same : (e : Expr) → (c : List (String × FExpr)) → CtxIn S c →
    Same (fun w => ValIn S w.val) (e.eval ⟨h1, rx⟩ (some c)) (e.eval ⟨h2, rx⟩ (some c))
  | .null, _, _ | .bool _, _, _ | .int _, _, _ | .dec _, _, _ | .str _, _, _ | .enum _ _, _, _ => by
    simp only [Expr.eval]; exact same_mk (by simp [ValIn])
  | .name m _, c, h => by
    simp only [Expr.eval]
    cases e : c.lookup m with
    | none => exact ⟨rfl, by simp⟩
    | some fe => exact feval_same hS hcl fe (h m fe e)
  | .unary t op e, c, h => by
    simp only [Expr.eval]
    exact same_bind (eval_same e c h) fun v _ => same_simple fun w hw => unary_simple hw
  | .binary t op l r, c, h => by
    simp only [Expr.eval]
    refine same_bind (eval_same l c h) fun v hv => ?_
    split
    · exact ⟨rfl, by simp⟩
    · refine same_bind (eval_same r c h) fun w _ => ?_
      split
      · exact ⟨rfl, by simp⟩
      · exact ⟨rfl, fun x hx => binaryOp_in hv hx⟩
  | .logic op l r, c, h => by
    simp only [Expr.eval]
    refine same_bind (eval_same l c h) fun v hv => ?_
    have hr := eval_same r c h
    have hvv : Same (fun w : TV => ValIn S w.val) (Ev.ok v) (Ev.ok v) :=
      ⟨rfl, by rintro w ⟨⟩; exact hv⟩
    split
    · exact ⟨rfl, by simp⟩
    · split
      · next b _ =>
        cases op <;> cases b <;> simp only [if_true, if_false, Bool.false_eq_true] <;>
          first | exact hr | exact hvv | exact same_mk (by simp [ValIn])
      · exact ⟨rfl, by simp⟩
  | .field p n _, c, h => by
    simp only [Expr.eval]
    refine same_bind (eval_same p c h) fun v hv => ?_
    split
    · exact ⟨rfl, by simp⟩
    · next fs e =>
      simp only [e, ValIn] at hv
      split
      · exact same_mk (by simp [ValIn])
      · next x hx =>
        refine ⟨rfl, ?_⟩
        rintro w ⟨⟩
        exact valInF_lookup hv hx
    · next fs e =>
      simp only [e, ValIn] at hv
      split
      · exact same_mk (by simp [ValIn])
      · next x hx => exact feval_same hS hcl _ (hv _ (lookup_mem hx))
    · exact ⟨rfl, by simp⟩
  | .range e lo up, c, h => by
    simp only [Expr.eval]
    refine same_bind (eval_same e c h) fun v hv => ?_
    split
    · exact ⟨rfl, by simp⟩
    · refine same_bind (eval_same lo c h) fun vlo _ => ?_
      split
      · exact ⟨rfl, by simp⟩
      · refine same_bind (eval_same up c h) fun vup _ => ?_
        split
        · exact ⟨rfl, by simp⟩
        · split
          · exact same_mk (by simp [ValIn])
          · exact same_mk (by simp [ValIn])
          · exact ⟨rfl, by simp⟩
  | .oneof cs, c, h => by
    simp only [Expr.eval]
    exact same_bind (evals_same cs c h) fun vs _ => same_mk (by simp [ValIn])
  | .cond _ as, c, h => by
    simp only [Expr.eval]
    exact evala_same as c h
  | .quant u x src body, c, h => by
    simp only [Expr.eval]
    cases e : c.lookup src with
    | none => exact ⟨rfl, by simp⟩
    | some fe =>
      have hfe := h src fe e
      cases fe <;> simp only
      case arr t es =>
        refine quant_same u _ _ es fun b hb => eval_same body _ ?_
        intro n fe' hn
        rw [List.lookup_cons] at hn
        cases hk : n == x <;> simp only [hk] at hn
        · exact h n fe' hn
        · cases hn; exact refsInL_mem hfe _ hb
      all_goals exact ⟨rfl, by simp⟩
private theorem evals_same : (es : Exprs) → (c : List (String × FExpr)) → CtxIn S c →
    Same (fun _ => True) (es.eval ⟨h1, rx⟩ (some c)) (es.eval ⟨h2, rx⟩ (some c))
  | .nil, _, _ => ⟨rfl, by simp⟩
  | .cons e es, c, h => by
    simp only [Exprs.eval]
    exact same_bind (eval_same e c h) fun v _ => same_bind (evals_same es c h) fun vs _ =>
      ⟨rfl, by simp⟩
private theorem evala_same : (as : Acts) → (c : List (String × FExpr)) → CtxIn S c →
    Same (fun w => ValIn S w.val) (as.eval ⟨h1, rx⟩ (some c)) (as.eval ⟨h2, rx⟩ (some c))
  | .els e, c, h => by
    simp only [Acts.eval]
    exact eval_same e c h
  | .act a e rest, c, h => by
    simp only [Acts.eval]
    refine same_bind (eval_same a c h) fun v _ => ?_
    split
    · exact ⟨rfl, by simp⟩
    · split
      · split
        · exact eval_same e c h
        · exact evala_same rest c h
      · exact ⟨rfl, by simp⟩
end
end

/-- **C51, the rest of the world**: let `S` be a set of record objects that is closed under
following references and contains every object referred to by the components in the context.
Then adding, removing or changing objects outside `S` does not alter the outcome of any check. -/
theorem C51_reachable_only (rx : List Char → List Char → Bool) (S : Nat → Prop)
    (h1 h2 : Nat → Option Fields) (hS : ∀ o, S o → h1 o = h2 o) (hcl : Closed S h1)
    (e : Expr) (c : List (String × FExpr)) (hc : ∀ n fe, c.lookup n = some fe → RefsIn S fe) :
    e.eval ⟨h1, rx⟩ (some c) = e.eval ⟨h2, rx⟩ (some c) :=
  (eval_same rx hS hcl e c hc).1

/-- Object 0 refers to object 1; object 2 is out of reach of a check on a reference to 0. -/
example (rx : List Char → List Char → Bool) (junk : Option Fields) :
    let heap : Option Fields → Nat → Option Fields := fun j o =>
      match o with
      | 0 => some [("next", ⟨0, .ref (.record 0) (some 1)⟩)]
      | 1 => some [("next", ⟨1, .inull⟩)]
      | _ => j
    let e : Expr := .field (.field (.name "r" (.record 0)) "next" (.record 0)) "next" (.record 0)
    e.eval ⟨heap none, rx⟩ (some [("r", .ref (.record 0) (some 0))]) =
      e.eval ⟨heap junk, rx⟩ (some [("r", .ref (.record 0) (some 0))]) := by
  refine C51_reachable_only rx (fun o => o ≤ 1) _ _ ?_ ?_ _ _ ?_
  · intro o ho
    match o, ho with
    | 0, _ => rfl
    | 1, _ => rfl
  · intro o fs ho hfs f hf
    match o, ho with
    | 0, _ =>
      simp only [Option.some.injEq] at hfs; subst hfs
      simp only [List.mem_singleton] at hf; subst hf
      intro o h; cases h; decide
    | 1, _ =>
      simp only [Option.some.injEq] at hfs; subst hfs
      simp only [List.mem_singleton] at hf; subst hf
      trivial
  · intro n fe h
    rw [List.lookup_cons] at h
    cases hk : n == "r" <;> simp only [hk, List.lookup_nil] at h
    · cases h
    · cases h; intro o h; cases h; decide

end Verif.Props
