import Verif.Model.ToyDataset
import Verif.Props.Datasets
import Verif.Proofs.Ode

/-!
Property C96: `ToyDataset.generate`.
-/

set_option linter.unusedSimpArgs false

namespace Torchdyn

/-- The number of rows asked for, as the parameter `n_samples` documents it, and the same number of labels. -/
def HasSamples (n : Nat) (d : Except PyErr (Option (List (List ℝ) × Option (List Nat)))) : Prop :=
  ∃ X y, d = .ok (some (X, some y)) ∧ X.length = n ∧ y.length = n

theorem check_ok (k : ToyKwargs) (declared : List String) :
    k.check declared = .ok () ↔ ∀ a ∈ k.names, a ∈ declared := by
  unfold ToyKwargs.check
  constructor
  · intro h
    by_cases hk : k.names.all (declared.contains ·)
    · simpa [List.all_eq_true] using hk
    · rw [if_neg hk] at h
      cases h
  · intro h
    rw [if_pos (by simpa [List.all_eq_true] using h)]
    rfl

/-- All given names are declared. -/
local macro "check_names" : tactic => `(tactic| (
  rw [check_ok]
  intro a ha
  simp only [ToyKwargs.names, List.mem_append, List.mem_ite_nil_right, List.mem_singleton, Option.isSome_none,
    Bool.false_eq_true, false_and, or_false, false_or, List.not_mem_nil] at ha
  simp only [List.mem_cons]
  tauto))

/-- **C96**, the part that holds: `moons` gives `n_samples` rows and labels, and so does `spheres` for even positive
`n_samples`; `spirals` gives `n_samples` per class, the Gaussians `n_samples` per component (in two dimensions); every
keyword argument a generator declares is accepted. Missing: the number of rows announced for `n_samples`, labels for
`diffeqml`, an error for unknown names. -/
theorem C96_rows_partial (r : ToyDraws) (n : Nat) (k : ToyKwargs) :
    HasSamples n (toyGenerate r n "moons" k) ∧
    HasSamples (2 * n) (toyGenerate r n "spirals" k) ∧
    (n % 2 = 0 → 0 < n → (∀ d i, ∃ a ∈ r.inner d i, a ≠ 0) → (∀ d i, ∃ a ∈ r.outer d i, a ≠ 0) →
      ∀ noise dim r₁ r₂, HasSamples n (toyGenerate r n "spheres"
        { noise := noise, dim := dim, innerRadius := r₁, outerRadius := r₂ })) ∧
    (∀ noise G radius std, HasSamples (n * Option.getD G 7) (toyGenerate r n "gaussians"
        { noise := noise, nGaussians := G, radius := radius, stdGaussians := std })) ∧
    (∀ noise G L r₀ r₁ s₀ s₁, 2 ≤ Option.getD G 7 → HasSamples (n * Option.getD G 7) (toyGenerate r n "gaussians_spiral"
        { noise := noise, nGaussians := G, nGaussiansPerLoop := L, radiusStart := r₀, radiusEnd := r₁,
          stdGaussiansStart := s₀, stdGaussiansEnd := s₁ })) := by
  refine ⟨?_, ?_, ?_, ?_, ?_⟩
  · have h := C66_moons_size n (some (k.noise.getD (1 / 10000))) r.uniform
    refine ⟨_, _, ?_, h.1, h.2.1⟩
    simp only [toyGenerate, String.reduceEq, if_false, if_true, pure, Except.pure]
  · have h := C66_spirals_size n (k.noise.getD (1 / 10000)) r.uniform r.uniform' r.uniform''
    refine ⟨_, _, ?_, h.1, h.2.1⟩
    simp only [toyGenerate, String.reduceEq, if_false, if_true, pure, Except.pure]
  · intro h2 h0 hin hout noise dim r₁ r₂
    obtain ⟨h, rfl⟩ : ∃ h, n = 2 * h := ⟨n / 2, by omega⟩
    obtain ⟨X, y, e, hX, hy, -⟩ := C67_even_partial h (by omega) (r₁.getD (1 / 2)) (r₂.getD 1) (r.inner (dim.getD 3))
      (r.outer (dim.getD 3)) (fun i => (r.innerNoise (dim.getD 3) i).map (fun a => noise.getD (1 / 10000) * a))
      (fun i => (r.outerNoise (dim.getD 3) i).map (fun a => noise.getD (1 / 10000) * a)) (hin _) (hout _)
    refine ⟨X, y, ?_, hX, hy⟩
    have hc : ToyKwargs.check { noise := noise, dim := dim, innerRadius := r₁, outerRadius := r₂ }
        ["noise", "dim", "inner_radius", "outer_radius"] = .ok () := by
      check_names
    simp only [toyGenerate, hc, e, bind, Except.bind, pure, Except.pure, String.reduceEq, if_false, if_true]
  · intro noise G radius std
    obtain ⟨X, y, e, hX, hy, -⟩ := C66_gaussians n (G.getD 7) (radius.getD (1 / 2)) (std.getD (1 / 10))
      (noise.getD (1 / 1000)) (r.normal 2) (r.classNoise 2)
    refine ⟨X, y, ?_, hX, hy⟩
    have hc : ToyKwargs.check { noise := noise, nGaussians := G, radius := radius, stdGaussians := std }
        ["n_gaussians", "dim", "radius", "std_gaussians", "noise"] = .ok () := by
      check_names
    simp only [toyGenerate, hc, e, bind, Except.bind, pure, Except.pure, String.reduceEq, if_false, if_true,
      Option.getD_none]
  · intro noise G L r₀ r₁ s₀ s₁ hG
    obtain ⟨X, y, e, hX, hy, -⟩ := C66_gaussians_spiral n (G.getD 7) (L.getD 4) hG (r₀.getD 1) (r₁.getD (1 / 5))
      (s₀.getD (3 / 10)) (s₁.getD (1 / 10)) (noise.getD (1 / 1000)) (r.normal 2) (r.classNoise 2)
    refine ⟨X, y, ?_, hX, hy⟩
    have hc : ToyKwargs.check
        { noise := noise, nGaussians := G, nGaussiansPerLoop := L, radiusStart := r₀,
          radiusEnd := r₁, stdGaussiansStart := s₀, stdGaussiansEnd := s₁ }
        ["n_gaussians", "n_gaussians_per_loop", "dim", "radius_start", "radius_end", "std_gaussians_start",
      "std_gaussians_end", "noise"] = .ok () := by
      check_names
    simp only [toyGenerate, hc, e, bind, Except.bind, pure, Except.pure, String.reduceEq, if_false, if_true,
      Option.getD_none]

/-- **C96.** A keyword argument that no generator declares raises `TypeError` in `spheres`, `gaussians`,
`gaussians_spiral` and `diffeqml`; `moons` and `spirals` ignore it. -/
theorem C96_unknown_keyword (r : ToyDraws) (n : Nat) (k : ToyKwargs) (name : String) (hk : name ∈ k.unknown)
    (hn : name ∉ ["noise", "dim", "inner_radius", "outer_radius", "n_gaussians", "n_gaussians_per_loop", "radius",
      "std_gaussians", "radius_start", "radius_end", "std_gaussians_start", "std_gaussians_end"]) :
    (∀ kind ∈ ["spheres", "gaussians", "gaussians_spiral", "diffeqml"], toyGenerate r n kind k = .error .typeError) ∧
    ∀ kind ∈ ["moons", "spirals"], toyGenerate r n kind k = toyGenerate r n kind { k with unknown := [] } := by
  have hc : ∀ declared : List String, declared ⊆ ["noise", "dim", "inner_radius", "outer_radius", "n_gaussians",
      "n_gaussians_per_loop", "radius", "std_gaussians", "radius_start", "radius_end", "std_gaussians_start",
      "std_gaussians_end"] → k.check declared = .error .typeError := by
    intro declared hd
    unfold ToyKwargs.check
    rw [if_neg]
    · rfl
    · intro h
      rw [List.all_eq_true] at h
      have := h name (by unfold ToyKwargs.names; exact List.mem_append_right _ hk)
      rw [List.contains_iff_mem] at this
      exact hn (hd this)
  constructor
  · intro kind hkind
    simp only [List.mem_cons, List.not_mem_nil, or_false] at hkind
    rcases hkind with rfl | rfl | rfl | rfl <;>
    · simp only [toyGenerate, String.reduceEq, if_false, if_true, bind, Except.bind]
      rw [hc _ (by intro a ha; revert a; decide)]
  · intro kind hkind
    simp only [List.mem_cons, List.not_mem_nil, or_false] at hkind
    rcases hkind with rfl | rfl <;> simp only [toyGenerate, String.reduceEq, if_false, if_true]

/-- **C96** is false of the code: an unknown name gives `None` instead of an error, whatever the other arguments. -/
theorem C96_unknown_refuted (r : ToyDraws) (n : Nat) (k : ToyKwargs) (kind : String)
    (h : kind ∉ ["moons", "spirals", "spheres", "gaussians", "gaussians_spiral", "diffeqml"]) :
    toyGenerate r n kind k = .ok none := by
  simp only [List.mem_cons, List.not_mem_nil, or_false, not_or] at h
  simp only [toyGenerate, h, if_false, pure, Except.pure]

/-- **C96** is false of the code: `spirals` returns twice the number of samples asked for and `gaussians` seven times;
`diffeqml` returns `None` for the labels. -/
theorem C96_samples_refuted (r : ToyDraws) (n : Nat) (hn : 0 < n) :
    ¬HasSamples n (toyGenerate r n "spirals" {}) ∧ ¬HasSamples n (toyGenerate r n "gaussians" {}) ∧
    ¬HasSamples n (toyGenerate r n "diffeqml" {}) := by
  obtain ⟨-, ⟨X, y, e, hX, -⟩, -, hg, -⟩ := C96_rows_partial r n {}
  obtain ⟨X', y', e', hX', -⟩ := hg none none none none
  refine ⟨?_, ?_, ?_⟩
  · rintro ⟨Z, w, h, hZ, -⟩
    rw [h] at e
    have e := Option.some.inj (Except.ok.inj e)
    have : Z = X := congrArg Prod.fst e
    subst this
    omega
  · rintro ⟨Z, w, h, hZ, -⟩
    have e'' := h.symm.trans e'
    have e'' := Option.some.inj (Except.ok.inj e'')
    have : Z = X' := congrArg Prod.fst e''
    subst this
    simp at hX'
    omega
  · rintro ⟨Z, w, h, -, -⟩
    have hc : ToyKwargs.check {} ["noise"] = .ok () := by rw [check_ok]; simp [ToyKwargs.names]
    simp only [toyGenerate, hc, String.reduceEq, if_false, if_true, bind, Except.bind, pure, Except.pure] at h
    have := Option.some.inj (Except.ok.inj h)
    exact absurd (congrArg Prod.snd this) (by simp)

/-- The trajectory of the logo field from a point at distance two of the origin: it turns with unit speed and its distance
from the origin decreases towards one. -/
noncomputable def logoCurve (a b t : ℝ) : ℝ × ℝ :=
  ((a * Real.cos t - b * Real.sin t) / Real.sqrt (4 - 3 * Real.exp (-2 * t)),
    (a * Real.sin t + b * Real.cos t) / Real.sqrt (4 - 3 * Real.exp (-2 * t)))

/-- **C96.** The arms of the logo: the three starting points of `generate_diffeqml` lie on the circle of radius two, and the
solutions of the field from such points are the curves `logoCurve`, and no others. -/
theorem C96_logo : (∀ x ∈ [((0 : ℝ), (2 : ℝ)), (-1.6, -1.2), (1.6, -1.2)], x.1 ^ 2 + x.2 ^ 2 = 4) ∧
    ∀ a b : ℝ, a ^ 2 + b ^ 2 = 4 → logoCurve a b 0 = (a, b) ∧
      (∀ t, 0 ≤ t → HasDerivAt (logoCurve a b) (logoField (logoCurve a b t)) t ∧
        1 < (logoCurve a b t).1 ^ 2 + (logoCurve a b t).2 ^ 2 ∧
        (logoCurve a b t).1 ^ 2 + (logoCurve a b t).2 ^ 2 = 4 / (4 - 3 * Real.exp (-2 * t))) ∧
      ∀ (τ : ℝ) (y : ℝ → ℝ × ℝ), 0 ≤ τ → y 0 = (a, b) →
        (∀ t ∈ Set.Icc 0 τ, HasDerivWithinAt y (logoField (y t)) (Set.Icc 0 τ) t) → Set.EqOn y (logoCurve a b) (Set.Icc 0 τ) := by
  refine ⟨by intro x hx; fin_cases hx <;> norm_num, fun a b hab => ?_⟩
  have h0 : logoCurve a b 0 = (a, b) := by
    simp only [logoCurve, Real.cos_zero, Real.sin_zero, mul_zero, Real.exp_zero]
    norm_num
  have hpos : ∀ t : ℝ, 0 ≤ t → 0 < 4 - 3 * Real.exp (-2 * t) := fun t ht => by
    have : Real.exp (-2 * t) ≤ 1 := Real.exp_le_one_iff.2 (by linarith)
    linarith
  have hrad : ∀ t, 0 ≤ t → (logoCurve a b t).1 ^ 2 + (logoCurve a b t).2 ^ 2 = 4 / (4 - 3 * Real.exp (-2 * t)) := by
    intro t ht
    simp only [logoCurve, div_pow, Real.sq_sqrt (hpos t ht).le, ← add_div]
    congr 1
    nlinarith [Real.sin_sq_add_cos_sq t]
  have hder : ∀ t, 0 ≤ t → HasDerivAt (logoCurve a b) (logoField (logoCurve a b t)) t := by
    intro t ht
    have hs := hpos t ht
    have hq : HasDerivAt (fun t : ℝ => 4 - 3 * Real.exp (-2 * t)) (6 * Real.exp (-2 * t)) t := by
      have h1 : HasDerivAt (fun t : ℝ => -2 * t) (-2) t := by simpa using (hasDerivAt_id t).const_mul (-2)
      refine ((h1.exp.const_mul 3).const_sub 4).congr_deriv ?_
      ring
    have hsq := hq.sqrt hs.ne'
    have hne : Real.sqrt (4 - 3 * Real.exp (-2 * t)) ≠ 0 := (Real.sqrt_pos.2 hs).ne'
    have hc1 := (((Real.hasDerivAt_cos t).const_mul a).sub ((Real.hasDerivAt_sin t).const_mul b)).div hsq hne
    have hc2 := (((Real.hasDerivAt_sin t).const_mul a).add ((Real.hasDerivAt_cos t).const_mul b)).div hsq hne
    refine HasDerivAt.congr_deriv (hc1.prodMk hc2) ?_
    have hr := hrad t ht
    have hr2 : 1 - (logoCurve a b t).1 ^ 2 - (logoCurve a b t).2 ^ 2 =
        -3 * Real.exp (-2 * t) / (4 - 3 * Real.exp (-2 * t)) := by
      rw [eq_div_iff hs.ne']
      have : ((logoCurve a b t).1 ^ 2 + (logoCurve a b t).2 ^ 2) * (4 - 3 * Real.exp (-2 * t)) = 4 := by
        rw [hr, div_mul_cancel₀ _ hs.ne']
      linarith
    unfold logoField
    rw [hr2]
    simp only [logoCurve]
    have hss := Real.sq_sqrt hs.le
    generalize Real.sqrt (4 - 3 * Real.exp (-2 * t)) = r at *
    rw [← hss]
    generalize Real.exp (-2 * t) = e at *
    ext
    · simp only [Pi.sub_apply]
      field_simp
      ring
    · simp only [Pi.add_apply]
      field_simp
      ring
  refine ⟨h0, fun t ht => ⟨hder t ht, ?_, hrad t ht⟩, fun τ y hτ hy0 hy => ?_⟩
  · rw [hrad t ht, lt_div_iff₀ (hpos t ht)]
    have := Real.exp_pos (-2 * t)
    linarith
  · have hL : ContDiff ℝ 1 logoField := by unfold logoField; fun_prop
    refine fun t ht => solution_unique (g := fun _ => logoField) ((hL.continuous_fderiv (by simp)).comp continuous_snd)
      (fun _ => hL.differentiable (by simp)) (fun t ht => (hder t ht.1).hasDerivWithinAt) hy ?_ t ht
    rw [hy0, h0]

/-- The training points of the density estimate: they depend neither on the number of samples nor on the noise. -/
noncomputable def logoPoints (r : ToyDraws) : List (List ℝ) :=
  [((0 : ℝ), (2 : ℝ)), (-1.6, -1.2), (1.6, -1.2)].flatMap (fun x0 =>
    r.lsoda logoField x0 ((List.range 500).map (linspaceAt 0 3.2 500))) ++
  ((List.range 1000).map (linspaceAt 0 (2 * Real.pi) 1000)).map (fun a => [2 * Real.cos a, 2 * Real.sin a])

/-- **C96.** `diffeqml`: two coordinates for each of the `n_samples` points, when the density estimate does its part; each
coordinate is that of a sample of the estimate plus `noise` times a standard normal draw. -/
theorem C96_diffeqml (r : ToyDraws) (n : Nat) (noise : Option ℝ)
    (hk : ∀ X, (r.kde X n).length = n ∧ ∀ row ∈ r.kde X n, row.length = 2) (hz : ∀ i, (r.kdeNoise i).length = 2) :
    ∃ X, toyGenerate r n "diffeqml" { noise := noise } = .ok (some (X, none)) ∧ X.length = n ∧
      (∀ row ∈ X, row.length = 2) ∧
      ∀ i c, i < n → c < 2 → ∃ row s z w, X[i]? = some row ∧ row[c]? = some (z + noise.getD (1 / 1000) * w) ∧
        (r.kde (logoPoints r) n)[i]? = some s ∧ s[c]? = some z ∧ (r.kdeNoise i)[c]? = some w := by
  have hc : ToyKwargs.check { noise := noise } ["noise"] = .ok () := by
    check_names
  refine ⟨_, by simp only [toyGenerate, hc, String.reduceEq, if_false, if_true, bind, Except.bind, pure, Except.pure]; rfl, ?_, ?_, ?_⟩
  · simp [generateDiffeqml, (hk _).1]
  · intro row hrow
    unfold generateDiffeqml at hrow
    rw [List.mem_iff_getElem] at hrow
    obtain ⟨i, hi, rfl⟩ := hrow
    simp only [List.getElem_zipWith, addRow, List.length_zipWith, List.getElem_map, List.length_map, hz]
    rw [(hk _).2 _ (List.getElem_mem _)]
    rfl
  · intro i c hi hc2
    have hK := hk (logoPoints r)
    have h1 : i < (r.kde (logoPoints r) n).length := by rw [hK.1]; exact hi
    have h2 : ((r.kde (logoPoints r) n)[i]).length = 2 := hK.2 _ (List.getElem_mem _)
    have h3 : c < ((r.kde (logoPoints r) n)[i]).length := by omega
    have h4 : c < (r.kdeNoise i).length := by rw [hz]; exact hc2
    refine ⟨addRow ((r.kde (logoPoints r) n)[i]) ((r.kdeNoise i).map (fun a => noise.getD (1 / 1000) * a)),
      (r.kde (logoPoints r) n)[i], ((r.kde (logoPoints r) n)[i])[c], (r.kdeNoise i)[c], ?_, ?_, ?_, ?_, ?_⟩
    · unfold generateDiffeqml
      rw [List.getElem?_zipWith]
      have : (r.kde (logoPoints r) n)[i]? = some (r.kde (logoPoints r) n)[i] := List.getElem?_eq_getElem h1
      unfold logoPoints at this ⊢
      rw [this]
      simp [hi]
    · rw [addRow, List.getElem?_zipWith, List.getElem?_map, List.getElem?_eq_getElem h3, List.getElem?_eq_getElem h4]
      rfl
    · exact List.getElem?_eq_getElem h1
    · exact List.getElem?_eq_getElem h3
    · exact List.getElem?_eq_getElem h4

/-- The result of a generator as `generate` returns it. -/
def labelled (d : Except PyErr Dataset) : Except PyErr (Option (List (List ℝ) × Option (List Nat))) :=
  d.map (fun d => some (d.1, some d.2))

/-- **C96.** Forwarding: each keyword argument reaches the parameter of the generator of the same name, and the ones
that are not given have the documented default. -/
theorem C96_forwards (r : ToyDraws) (n : Nat) :
    (∀ noise, toyGenerate r n "moons" { noise := some noise } = labelled (.ok (generateMoons n (some noise) r.uniform))) ∧
    (∀ noise, toyGenerate r n "spirals" { noise := some noise } =
      labelled (.ok (generateSpirals n noise r.uniform r.uniform' r.uniform''))) ∧
    (∀ noise dim r₁ r₂,
      toyGenerate r n "spheres" { noise := some noise, dim := some dim, innerRadius := some r₁, outerRadius := some r₂ } =
        labelled (generateConcentricSpheres n r₁ r₂ (r.inner dim) (r.outer dim)
          (fun i => (r.innerNoise dim i).map (noise * ·)) (fun i => (r.outerNoise dim i).map (noise * ·)))) ∧
    (∀ noise dim G radius std, toyGenerate r n "gaussians"
        { noise := some noise, dim := some dim, nGaussians := some G, radius := some radius, stdGaussians := some std } =
      labelled (generateGaussians n G dim radius std noise (r.normal dim) (r.classNoise dim))) ∧
    (∀ noise dim G L r₀ r₁ s₀ s₁, toyGenerate r n "gaussians_spiral"
        { noise := some noise, dim := some dim, nGaussians := some G, nGaussiansPerLoop := some L,
          radiusStart := some r₀, radiusEnd := some r₁, stdGaussiansStart := some s₀, stdGaussiansEnd := some s₁ } =
      labelled (generateGaussiansSpiral n G L dim r₀ r₁ s₀ s₁ noise (r.normal dim) (r.classNoise dim))) ∧
    (toyGenerate r n "moons" {} = toyGenerate r n "moons" { noise := some (1 / 10000) }) ∧
    (toyGenerate r n "spirals" {} = toyGenerate r n "spirals" { noise := some (1 / 10000) }) ∧
    (toyGenerate r n "spheres" {} = toyGenerate r n "spheres"
      { noise := some (1 / 10000), dim := some 3, innerRadius := some (1 / 2), outerRadius := some 1 }) ∧
    (toyGenerate r n "gaussians" {} = toyGenerate r n "gaussians"
      { noise := some (1 / 1000), dim := some 2, nGaussians := some 7, radius := some (1 / 2),
        stdGaussians := some (1 / 10) }) ∧
    (toyGenerate r n "gaussians_spiral" {} = toyGenerate r n "gaussians_spiral"
      { noise := some (1 / 1000), dim := some 2, nGaussians := some 7, nGaussiansPerLoop := some 4, radiusStart := some 1,
        radiusEnd := some (1 / 5), stdGaussiansStart := some (3 / 10), stdGaussiansEnd := some (1 / 10) }) ∧
    (toyGenerate r n "diffeqml" {} = toyGenerate r n "diffeqml" { noise := some (1 / 1000) }) := by
  have hs : ∀ a b c d, ToyKwargs.check { noise := a, dim := b, innerRadius := c, outerRadius := d }
      ["noise", "dim", "inner_radius", "outer_radius"] = .ok () := by
    intro a b c d
    check_names
  have hg : ∀ a b c d e, ToyKwargs.check { noise := a, dim := b, nGaussians := c, radius := d, stdGaussians := e }
      ["n_gaussians", "dim", "radius", "std_gaussians", "noise"] = .ok () := by
    intro a b c d e
    check_names
  have hp : ∀ a b c d e f g h, ToyKwargs.check
      { noise := a, dim := b, nGaussians := c, nGaussiansPerLoop := d,
        radiusStart := e, radiusEnd := f, stdGaussiansStart := g, stdGaussiansEnd := h }
      ["n_gaussians", "n_gaussians_per_loop", "dim", "radius_start", "radius_end", "std_gaussians_start",
        "std_gaussians_end", "noise"] = .ok () := by
    intro a b c d e f g h
    check_names
  have hd : ∀ a, ToyKwargs.check { noise := a } ["noise"] = .ok () := by
    intro a
    check_names
  have hs0 := hs none none none none
  have hg0 := hg none none none none none
  have hp0 := hp none none none none none none none none
  have hd0 := hd none
  have em : ∀ d : Except PyErr Dataset, labelled d = d.bind (fun d => .ok (some (d.1, some d.2))) := by
    intro d
    cases d <;> rfl
  refine ⟨?_, ?_, ?_, ?_, ?_, ?_, ?_, ?_, ?_, ?_, ?_⟩ <;> intros <;>
  simp only [toyGenerate, em, hs, hg, hp, hd, hs0, hg0, hp0, hd0, bind, Except.bind, pure, Except.pure, String.reduceEq,
    if_false, if_true, Option.getD_some, Option.getD_none]

/-- Non-vacuity of C96: draws that meet the hypotheses. -/
example : ∃ r : ToyDraws, (∀ d i, ∃ a ∈ r.inner d i, a ≠ 0) ∧ (∀ d i, ∃ a ∈ r.outer d i, a ≠ 0) ∧
    (∀ X n, (r.kde X n).length = n ∧ ∀ row ∈ r.kde X n, row.length = 2) ∧ ∀ i, (r.kdeNoise i).length = 2 :=
  ⟨⟨fun _ => 0, fun _ => 0, fun _ => 0, fun _ _ => [1, 2, 3], fun _ _ => [3, 2, 1], fun _ _ => [0, 0, 0],
    fun _ _ => [0, 0, 0], fun _ _ _ => [0, 1], fun _ _ => [1, 0], fun _ n => List.replicate n [1, 2], fun _ => [0, 1],
    fun _ _ _ => []⟩, fun _ _ => ⟨1, by simp, one_ne_zero⟩, fun _ _ => ⟨3, by simp, by norm_num⟩,
    fun _ n => ⟨by simp, by simp⟩, fun _ => rfl⟩

end Torchdyn
