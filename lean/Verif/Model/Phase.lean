import Verif.Model.Ray
import Mathlib.Analysis.SpecialFunctions.Trigonometric.Inverse

/-!
Direction sampling: `/repo/pvtrace/material/utils.py:91-186` and `sample_phase` of
`/repo/pvtrace/engine/_kernel.pyx:449-476`.
-/

namespace PV
noncomputable section
variable {σ : Type}

/-- A source of uniform random numbers: `np.random.uniform()` of the Python tracer or
`rng_uniform(&rng)` of the engine. -/
structure Rand (σ : Type) where
  next : σ → ℝ × σ

/-- All numbers drawn are in `[0, 1)`. -/
def Rand.Unit (R : Rand σ) : Prop := ∀ s, 0 ≤ (R.next s).1 ∧ (R.next s).1 < 1

/-- `EPS_ZERO`, `/repo/pvtrace/geometry/utils.py:12` (`np.finfo(float).eps * 1000`), and `EPS`,
`/repo/pvtrace/engine/_kernel.pyx:28`. -/
def epsZero : ℝ := 2.220446049250313e-13

/-- `spherical_to_cart(theta, phi)` with `r = 1`, `/repo/pvtrace/material/utils.py:91-98`. -/
def sphericalToCart (theta phi : ℝ) : Vec3 ℝ :=
  ⟨Real.sin theta * Real.cos phi, Real.sin theta * Real.sin phi, Real.cos theta⟩

/-- `isotropic`, `/repo/pvtrace/material/utils.py:104-111`. -/
def isotropic (R : Rand σ) (s : σ) : Vec3 ℝ × σ :=
  let (g1, s) := R.next s
  let (g2, s) := R.next s
  let phi := 2 * Real.pi * g1
  let mu := 2 * g2 - 1
  let theta := Real.arccos mu
  (sphericalToCart theta phi, s)

/-- The cosine of `henyey_greenstein` for the number `p`,
`/repo/pvtrace/material/utils.py:118-119`. -/
def hgMu (g p : ℝ) : ℝ :=
  let s := 2 * p - 1
  1 / (2 * g) * (1 + g ^ 2 - ((1 - g ^ 2) / (1 + g * s)) ^ 2)

open Classical in
/-- `henyey_greenstein`, `/repo/pvtrace/material/utils.py:114-127`. All values are Python floats,
so both divisions raise `ZeroDivisionError` for a zero divisor. Simplification: for `|g| > 1` the
cosine may leave `[-1, 1]` and the code returns `nan`; the model does not represent that. -/
def henyeyGreenstein (R : Rand σ) (g : ℝ) (s : σ) : Except Err (Vec3 ℝ × σ) :=
  let (p, s) := R.next s
  if 2 * g = 0 ∨ 1 + g * (2 * p - 1) = 0 then .error .zeroDivision
  else
    let mu := hgMu g p
    if |g| < epsZero then .ok (isotropic R s)
    else
      let (u, s) := R.next s
      let phi := 2 * Real.pi * u
      let theta := Real.arccos mu
      .ok (sphericalToCart theta phi, s)

open Classical in
/-- `cone`, `/repo/pvtrace/material/utils.py:143-163`; `np.isclose(theta_max, 0.0)` is
`|theta_max| <= 1e-8`. -/
def cone (R : Rand σ) (thetaMax : ℝ) (s : σ) : Except Err (Vec3 ℝ × σ) :=
  if |thetaMax| ≤ 1e-8 ∨ thetaMax > Real.pi / 2 then .error .valueError
  else
    let (p1, s) := R.next s
    let (p2, s) := R.next s
    let theta := Real.arcsin (Real.sqrt p1 * Real.sin thetaMax)
    let phi := 2 * Real.pi * p2
    .ok (sphericalToCart theta phi, s)

/-- `lambertian`, `/repo/pvtrace/material/utils.py:176-186`. -/
def lambertian (R : Rand σ) (s : σ) : Vec3 ℝ × σ :=
  let (p1, s) := R.next s
  let (p2, s) := R.next s
  let theta := Real.arcsin (Real.sqrt p1)
  let phi := 2 * Real.pi * p2
  (sphericalToCart theta phi, s)

/-- The phase functions a component may have, `/repo/pvtrace/engine/compiler.py:300-310`;
`lambertian` stands for the callables the compiler rejects. -/
inductive Phase
  | isotropic
  | henyeyGreenstein (g : ℝ)
  | cone (thetaMax : ℝ)
  | lambertian

/-- `self.phase_function()`. -/
def Phase.draw (R : Rand σ) (s : σ) : Phase → Except Err (Vec3 ℝ × σ)
  | .isotropic => .ok (PV.isotropic R s)
  | .henyeyGreenstein g => PV.henyeyGreenstein R g s
  | .cone t => PV.cone R t s
  | .lambertian => .ok (PV.lambertian R s)

/-- Phase tags, `/repo/pvtrace/engine/_kernel.pyx:50-53`. -/
inductive PhaseTag
  | isotropic | henyeyGreenstein | cone
deriving DecidableEq

/-- `_phase_tag`, `/repo/pvtrace/engine/compiler.py:300-310`; `none` is
`UnsupportedSceneError`. -/
def Phase.tag : Phase → Option (PhaseTag × ℝ)
  | .isotropic => some (.isotropic, 0)
  | .henyeyGreenstein g => some (.henyeyGreenstein, g)
  | .cone t => some (.cone, t)
  | .lambertian => none

open Classical in
/-- `sample_phase`, `/repo/pvtrace/engine/_kernel.pyx:455-476`. Division by zero gives `nan` in C
(`cdivision`); that value is not represented. -/
def kSamplePhase (R : Rand σ) (tag : PhaseTag) (param : ℝ) (s : σ) : Vec3 ℝ × σ :=
  if tag = .henyeyGreenstein ∧ |param| ≥ epsZero then
    let g := param
    let (g1, s) := R.next s
    let z := 2 * g1 - 1
    let mu := 1 / (2 * g) * (1 + g * g - ((1 - g * g) / (1 + g * z)) ^ 2)
    let (u, s) := R.next s
    let phi := 2 * Real.pi * u
    let theta := Real.arccos mu
    (⟨Real.sin theta * Real.cos phi, Real.sin theta * Real.sin phi, Real.cos theta⟩, s)
  else if tag = .cone then
    let (g1, s) := R.next s
    let (g2, s) := R.next s
    let theta := Real.arcsin (Real.sqrt g1 * Real.sin param)
    let phi := 2 * Real.pi * g2
    (⟨Real.sin theta * Real.cos phi, Real.sin theta * Real.sin phi, Real.cos theta⟩, s)
  else
    let (g1, s) := R.next s
    let (g2, s) := R.next s
    let phi := 2 * Real.pi * g1
    let mu := 2 * g2 - 1
    let theta := Real.arccos mu
    (⟨Real.sin theta * Real.cos phi, Real.sin theta * Real.sin phi, Real.cos theta⟩, s)

end
end PV
