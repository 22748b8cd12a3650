import Verif.Model.SplineTree
import Mathlib.Tactic.NormNum

/-! # Property C136: a natural cubic spline as an argument of a JAX transformation -/

noncomputable section
namespace GW

/-- **C136** is false: a natural cubic spline cannot be passed through a JAX transformation.  Whatever the spline and the function, `jax.jit(f)(s)` raises, because `tree_flatten` returns three
values instead of a pair. -/
theorem C136_jit_fails {γ : Type} (f : NatSpline → γ) (s : NatSpline) : jaxJit NatSpline.treeFlatten NatSpline.treeUnflatten f s = .error .runtime := rfl

/-- **C136** is false: nor can one be returned from a transformation.  Also with a repaired `tree_flatten`, the pair of the children and `None`, the call raises, because `tree_unflatten` takes
one argument and JAX passes two. -/
theorem C136_unflatten_fails {γ : Type} (f : NatSpline → γ) (s : NatSpline) :
    jaxJit (fun s => .tup [s.treeFlatten, .none]) NatSpline.treeUnflatten f s = .error .type := rfl

/-- **C136** (by hand).  `tree_unflatten(tree_flatten(s))`, called directly, gives back the spline: the same number of points, the same value at every point. -/
theorem C136_round_trip_partial (s : NatSpline) :
    ∃ t, NatSpline.treeUnflatten [s.treeFlatten] = .ok t ∧ t.n = s.n ∧ ∀ z, t.eval z = s.eval z :=
  ⟨s, by simp [NatSpline.treeFlatten, NatSpline.treeUnflatten, NatSpline.initWith], rfl, fun _ => rfl⟩

/-- **C136** (what a repair gives).  With both methods repaired, `jax.jit(f)(s)` is `f(s)` for every spline the constructor returns: the coefficients are taken over and not computed again. -/
theorem C136_repaired {γ : Type} (f : NatSpline → γ) {x y : Arr ℝ} {s : NatSpline} (h : NatSpline.init x y = .ok s) :
    jaxJit (fun s => .tup [s.treeFlatten, .none]) (fun args => match args with | [_, c] => NatSpline.treeUnflatten [c] | _ => .error .type) f s = .ok (f s) ∧ s.n = x.len := by
  refine ⟨by simp [jaxJit, jaxFlatten, jaxUnflatten, NatSpline.treeFlatten, NatSpline.treeUnflatten, NatSpline.initWith], ?_⟩
  unfold NatSpline.init at h
  split at h
  · simp at h
  · split at h
    · simp at h
    · simp only [Except.ok.injEq] at h
      rw [← h]

/-- **C136** (few points).  The constructor refuses fewer than four points, but not when the coefficients are given, so a taken-apart spline can be rebuilt with any number of points. -/
theorem C136_few_points (x y : Arr ℝ) (hxy : x.len = y.len) (hx : x.len ≤ 3) (c : ℕ → ℝ) :
    NatSpline.initWith x y none = .error .assertion ∧ NatSpline.initWith x y (some c) = .ok ⟨x.len, x.get, y.get, c⟩ := by
  constructor
  · simp [NatSpline.initWith, NatSpline.init, hxy, show ¬ 3 < y.len by omega]
  · simp [NatSpline.initWith, hxy]

/-- a spline on four points is within the hypotheses -/
example : ∃ s, NatSpline.init ⟨4, fun i => i⟩ ⟨4, fun i => (i:ℝ) ^ 2⟩ = .ok s ∧ s.n = 4 ∧ s.y 3 = 9 := by
  refine ⟨_, by simp [NatSpline.init]; rfl, rfl, ?_⟩
  norm_num

end GW
end
