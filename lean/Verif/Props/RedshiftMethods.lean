import Verif.Model.RedshiftMethods
import Verif.Props.RedshiftModel

/-! # C141: calling the methods of the redshift models -/

noncomputable section
open Classical
namespace GW
open F

/-- **C141.** For every object of `PowerlawRedshiftModel`: `log_prob(z, lamb)` returns, positionally or by keyword, and so does the call; these are the numbers of C39. -/
theorem C141_powerlaw (m : ZModel) (twoD : Bool) (z : Arr ℝ) (lamb : ℝ) (i : ℕ) :
    (∀ a ∈ [(⟨[.arr twoD z, .num lamb], []⟩ : ZArgs), ⟨[.arr twoD z], [("lamb", .num lamb)]⟩, ⟨[], [("z", .arr twoD z), ("lamb", .num lamb)]⟩, ⟨[], [("lamb", .num lamb), ("z", .arr twoD z)]⟩],
      (ZObj.powerlaw m).logProb a i = .ok (m.logProb twoD z lamb i) ∧ (ZObj.powerlaw m).call a i = .ok (m.call twoD z lamb i)) ∧
    (∀ cs, (ZObj.powerlaw m).call ⟨[.arr twoD z, .num lamb, .coefs cs], []⟩ i = .error .typeError) := by
  constructor
  · intro a ha
    simp only [List.mem_cons, List.not_mem_nil, or_false] at ha
    rcases ha with rfl | rfl | rfl | rfl <;>
      simp [ZObj.logProb, ZObj.call, ZObj.normalization, ZObj.attrs, bindValues, bindCall, ZModel.logProb, ZModel.call, bind, Except.bind, List.lookup] <;>
      exact ⟨by congr, by congr⟩
  · intro cs
    simp [ZObj.call, bindValues, bindCall, bind, Except.bind]

/-- `PowerlawSplineRedshiftModel`: the call returns. -/
theorem C141_spline_call (m : PLSpline) (twoD : Bool) (z : Arr ℝ) (lamb : ℝ) (cs : ℕ → ℝ) (i : ℕ) :
    (∀ a ∈ [(⟨[.arr twoD z, .num lamb, .coefs cs], []⟩ : ZArgs), ⟨[.arr twoD z], [("lamb", .num lamb), ("cs", .coefs cs)]⟩, ⟨[.arr twoD z], [("cs", .coefs cs), ("lamb", .num lamb)]⟩],
      (ZObj.spline m).call a i = .ok (m.call twoD z lamb cs i)) ∧
    (ZObj.spline m).call ⟨[.arr twoD z, .num lamb], []⟩ i = .error .typeError := by
  constructor
  · intro a ha
    simp only [List.mem_cons, List.not_mem_nil, or_false] at ha
    rcases ha with rfl | rfl | rfl <;>
      simp [ZObj.call, ZObj.normalization, ZObj.attrs, bindValues, bindCall, PLSpline.call, bind, Except.bind, List.lookup] <;>
      congr
  · simp [ZObj.call, bindValues, bindCall, bind, Except.bind]

/-- **C141, where it fails.** For every object of `PowerlawSplineRedshiftModel` the inherited `log_prob` raises `TypeError`, whatever the arguments: with `cs` it does not take them, without `cs` the
overridden `normalization` does not. -/
theorem C141_spline_log_prob_fails (m : PLSpline) (a : ZArgs) (i : ℕ) : (ZObj.spline m).logProb a i = .error .typeError := by
  have hn : ∀ lamb : ℝ, (ZObj.spline m).normalization ⟨[.num lamb], []⟩ = .error .typeError := fun lamb => by
    simp [ZObj.normalization, bindValues, bindCall, bind, Except.bind]
  have hb : ∀ e, bindValues ["z", "lamb"] a = .error e → e = .typeError := by
    intro e he
    unfold bindValues bindCall at he
    split_ifs at he <;> simp [bind, Except.bind] at he <;> exact he.symm
  unfold ZObj.logProb
  rcases h : bindValues ["z", "lamb"] a with e | vs
  · rw [hb e h]; rfl
  · show (match vs with
      | [.arr twoD z, .num lamb] => _
      | _ => _) = _
    split
    · rw [hn]; rfl
    · rfl

example : (ZObj.powerlaw ⟨fun _ => 1, ⟨2, fun i => i⟩, ⟨2, fun i => i⟩⟩).logProb ⟨[.arr false ⟨2, fun i => i⟩, .num 1], []⟩ 0 =
    .ok (ZModel.logProb ⟨fun _ => 1, ⟨2, fun i => i⟩, ⟨2, fun i => i⟩⟩ false ⟨2, fun i => i⟩ 1 0) :=
  ((C141_powerlaw _ false ⟨2, fun i => i⟩ 1 0).1 _ (by simp)).1

example (m : PLSpline) (cs : ℕ → ℝ) : (ZObj.spline m).logProb ⟨[.arr false m.parent.zinj, .num 1, .coefs cs], []⟩ 0 = .error .typeError := C141_spline_log_prob_fails m _ 0

end GW
end
