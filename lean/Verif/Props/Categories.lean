import Verif.Props.GuaranteeSamples
/-!
# C77: the messages of the verification of a type
-/
namespace Verif.Props
open Verif.Model

/-- What the tag at the end of a message says about the goal it is for -/
inductive Tagged : String → Feedback → Prop
  | null : Tagged "vcg-evaluation-of-null" .null
  | zero : Tagged "vcg-div-by-zero" .divByZero
  | below : Tagged "vcg-array-index" .indexBelow
  | above : Tagged "vcg-array-index" .indexAbove
  | always (check : Expr) : Tagged "vcg-always-true" (.alwaysTrue check)

theorem tagged_iff {c : String} {fb : Feedback} : Tagged c fb ↔ fb.category = c := by
  constructor
  · rintro (_ | _ | _ | _ | _) <;> rfl
  · rintro rfl
    cases fb
    · exact .null
    · exact .zero
    · exact .below
    · exact .above
    · exact .always _

/-- **C77** on the level of messages: a type that could be translated gets a message with a tag exactly for the goals
of this kind that do not hold on some path, or the checks that are true on all paths; nothing but such messages. -/
theorem C77_messages {s : PS} {V : Verification} {rx : List Char → List Char → Bool} {ct : CompositeTy} {G : TS}
    {cs : List MHCall} (hG : s.verify rx ct TS.empty = .ok () G) (ho : OneFeedback (V.solve ct G))
    (h : s.analyze V rx ct = some cs) (m : MHCall) : m ∈ cs ↔ ∃ k fb c, Tagged c fb ∧
      (Refuted (V.solve ct G) k fb ∨ AlwaysTrue (V.solve ct G) k fb) ∧
      m = .check (V.tell ct (k, fb)).1 (V.tell ct (k, fb)).2 c := by
  unfold PS.analyze at h
  rw [hG] at h
  simp only [Option.some.injEq] at h
  subst h
  rw [List.mem_map]
  constructor
  · rintro ⟨⟨k, fb⟩, hr, rfl⟩
    exact ⟨k, fb, _, tagged_iff.2 rfl, ((C77_reports _ ho).1 k fb).1 hr, rfl⟩
  · rintro ⟨k, fb, c, ht, hr, rfl⟩
    exact ⟨(k, fb), ((C77_reports _ ho).1 k fb).2 hr, by rw [tagged_iff.1 ht]⟩

/-- **C77**: a message tagged as "always true" is for a check that is true on all paths to it, and every such check
gets one. -/
theorem C77_tag_always_true {s : PS} {V : Verification} {rx : List Char → List Char → Bool} {ct : CompositeTy} {G : TS}
    {cs : List MHCall} (hG : s.verify rx ct TS.empty = .ok () G) (ho : OneFeedback (V.solve ct G))
    (h : s.analyze V rx ct = some cs) :
    (∃ l t, MHCall.check l t "vcg-always-true" ∈ cs) ↔ ∃ k check, AlwaysTrue (V.solve ct G) k (.alwaysTrue check) := by
  constructor
  · rintro ⟨l, t, hm⟩
    obtain ⟨k, fb, c, ht, hr, e⟩ := (C77_messages hG ho h _).1 hm
    rw [MHCall.check.injEq] at e
    rw [← e.2.2] at ht
    generalize hc : "vcg-always-true" = c' at ht
    cases ht with
    | always check =>
      rcases hr with hr | hr
      · cases hr.1
      · exact ⟨k, _, hr⟩
    | _ => exact absurd hc (by decide)
  · rintro ⟨k, check, hr⟩
    exact ⟨_, _, (C77_messages hG ho h _).2 ⟨k, _, _, .always check, .inr hr, rfl⟩⟩

namespace CatSample

/-- a solver that claims that nothing can go wrong and that all checks are true -/
def V : Verification := { GuSample.V with solve := fun _ G => (Lemmas.Vcg.vcsOf G).map fun vc => ⟨(vc.node, vc.pos), vc.fb, true⟩ }

/-- a solver that never knows an answer -/
def W : Verification := { GuSample.V with solve := fun _ G => (Lemmas.Vcg.vcsOf G).map fun vc => ⟨(vc.node, vc.pos), vc.fb, false⟩ }

end CatSample

set_option maxRecDepth 100000 in
/-- the check of the record type of `GuSample` gets the tag, resp. twice that of a possible evaluation of null -/
example : GuSample.st.analyze CatSample.V GuSample.outside.rx.search (.record 0) = some [.check "" "" "vcg-always-true"] ∧
    GuSample.st.analyze CatSample.W GuSample.outside.rx.search (.record 0) =
      some [.check "" "" "vcg-evaluation-of-null", .check "" "" "vcg-evaluation-of-null"] := by
  decide +kernel

end Verif.Props
