import Verif.Model.Arc
import Mathlib.Analysis.SpecialFunctions.Trigonometric.Arctan

/-!
# Geometry of the three arc planes in complex coordinates
-/

namespace Pygcode

/-- The planes arcs are drawn in. -/
inductive Pl
  | xy | zx | yz
  deriving DecidableEq

namespace Pl

/-- The plane's gcode class. -/
def cls : Pl → Cls
  | xy => .selectXYPlane
  | zx => .selectZXPlane
  | yz => .selectYZPlane

/-- Right-handed coordinates in the plane, seen from the positive end of the normal. -/
def coord : Pl → V3 → ℂ
  | xy, v => ⟨v.x, v.y⟩
  | zx, v => ⟨v.z, v.x⟩
  | yz, v => ⟨v.y, v.z⟩

/-- Coordinate along the normal. -/
def height : Pl → V3 → ℝ
  | xy, v => v.z
  | zx, v => v.y
  | yz, v => v.x

/-- The unit normal. -/
def normal : Pl → V3
  | xy => ⟨0, 0, 1⟩
  | zx => ⟨0, 1, 0⟩
  | yz => ⟨1, 0, 0⟩

/-- A point is determined by its coordinates. -/
theorem ext_iff (p : Pl) (a b : V3) : a = b ↔ p.coord a = p.coord b ∧ p.height a = p.height b := by
  cases p <;> simp [coord, height, V3.ext_iff, Complex.ext_iff] <;> tauto

variable (p : Pl) (a b n : V3) (k : ℝ)

@[simp] theorem coord_add : p.coord (a + b) = p.coord a + p.coord b := by
  cases p <;> rfl
@[simp] theorem coord_sub : p.coord (a - b) = p.coord a - p.coord b := by
  cases p <;> rfl
@[simp] theorem coord_mul : p.coord (a.mul k) = p.coord a * k := by
  cases p <;> simp [coord, V3.mul, Complex.ext_iff]
@[simp] theorem height_add : p.height (a + b) = p.height a + p.height b := by
  cases p <;> rfl
@[simp] theorem height_sub : p.height (a - b) = p.height a - p.height b := by
  cases p <;> rfl
@[simp] theorem height_mul : p.height (a.mul k) = p.height a * k := by
  cases p <;> rfl
@[simp] theorem coord_normal : p.coord p.normal = 0 := by cases p <;> rfl
@[simp] theorem height_normal : p.height p.normal = 1 := by cases p <;> rfl
@[simp] theorem dot_normal : a.dot p.normal = p.height a := by
  cases p <;> simp [V3.dot, normal, height]

theorem abs_eq : a.abs = √(‖p.coord a‖ ^ 2 + p.height a ^ 2) := by
  rw [V3.abs, Complex.sq_norm, Complex.normSq_apply]
  congr 1
  cases p <;> simp only [coord, height] <;> ring

theorem abs_flat (h : p.height a = 0) : a.abs = ‖p.coord a‖ := by
  rw [abs_eq p, h]
  simp

@[simp] theorem abs_normal : p.normal.abs = 1 := by rw [abs_eq p]; simp

theorem normalized_normal : p.normal.normalized = p.normal := by
  unfold V3.normalized
  rw [abs_normal, if_neg one_ne_zero]
  simp

theorem abs_neg : (-a).abs = a.abs := by
  unfold V3.abs
  congr 1
  show (-a.x) ^ 2 + (-a.y) ^ 2 + (-a.z) ^ 2 = _
  ring

theorem normalized_neg_normal : (-p.normal).normalized = -p.normal := by
  unfold V3.normalized
  rw [abs_neg, abs_normal, if_neg one_ne_zero]
  simp

@[simp] theorem coord_proj : p.coord (planeProjection a p.normal) = p.coord a := by
  simp [planeProjection, normalized_normal]

@[simp] theorem height_proj : p.height (planeProjection a p.normal) = 0 := by
  simp [planeProjection, normalized_normal]

theorem coord_cross : p.coord (a.cross p.normal) = -Complex.I * p.coord a := by
  cases p <;> simp [coord, V3.cross, normal, Complex.ext_iff]

theorem height_cross : p.height (a.cross p.normal) = 0 := by
  cases p <;> simp [height, V3.cross, normal]

theorem coord_normalized (h : p.height a = 0) : p.coord a.normalized = p.coord a / (‖p.coord a‖ : ℝ) := by
  unfold V3.normalized
  rw [abs_flat p a h]
  split_ifs with h0
  · rw [h0, norm_eq_zero.1 h0]; simp
  · rw [show (⟨a.x / ‖p.coord a‖, a.y / ‖p.coord a‖, a.z / ‖p.coord a‖⟩ : V3) = a.mul (1 / ‖p.coord a‖) by
      simp [V3.mul, div_eq_mul_inv], coord_mul]
    rw [one_div, Complex.ofReal_inv, div_eq_mul_inv]

theorem height_normalized (h : p.height a = 0) : p.height a.normalized = 0 := by
  unfold V3.normalized
  split_ifs
  · exact h
  · rw [show (⟨a.x / a.abs, a.y / a.abs, a.z / a.abs⟩ : V3) = a.mul (1 / a.abs) by
      simp [V3.mul, div_eq_mul_inv], height_mul, h, zero_mul]

/-- Rotating about the reversed normal is turning clockwise in the plane. -/
theorem rotate (θ : ℝ) :
    p.coord ((Quat.rotateAxis θ (-p.normal)).apply a) = Complex.exp (-(θ * Complex.I)) * p.coord a ∧
      p.height ((Quat.rotateAxis θ (-p.normal)).apply a) = p.height a := by
  have hc : Real.cos θ = Real.cos (θ / 2) ^ 2 - Real.sin (θ / 2) ^ 2 := by
    have := Real.cos_two_mul' (θ / 2)
    rwa [mul_div_cancel₀ _ (two_ne_zero)] at this
  have hs : Real.sin θ = 2 * Real.sin (θ / 2) * Real.cos (θ / 2) := by
    have := Real.sin_two_mul (θ / 2)
    rwa [mul_div_cancel₀ _ (two_ne_zero)] at this
  have h1 := Real.sin_sq_add_cos_sq (θ / 2)
  have he : Complex.exp (-(θ * Complex.I)) = ⟨Real.cos θ, -Real.sin θ⟩ := by
    rw [show -((θ : ℂ) * Complex.I) = ((-θ : ℝ) : ℂ) * Complex.I by push_cast; ring, Complex.exp_mul_I,
      ← Complex.ofReal_cos, ← Complex.ofReal_sin, Real.cos_neg, Real.sin_neg]
    rw [Complex.ext_iff]
    constructor <;> simp [Complex.cos_ofReal_re, Complex.sin_ofReal_re, ← Complex.ofReal_cos, ← Complex.ofReal_sin]
  rw [he, hc, hs]
  unfold Quat.rotateAxis
  rw [normalized_neg_normal]
  generalize Real.cos (θ / 2) = c at *
  generalize Real.sin (θ / 2) = s at *
  have hx : (-p.normal).x = -p.normal.x := rfl
  have hy : (-p.normal).y = -p.normal.y := rfl
  have hz : (-p.normal).z = -p.normal.z := rfl
  simp only [hx, hy, hz]
  cases p <;> simp only [coord, height, normal, Quat.apply, Complex.ext_iff, Complex.mul_re, Complex.mul_im] <;>
    refine ⟨⟨by ring, by ring⟩, ?_⟩
  · linear_combination a.z * h1
  · linear_combination a.y * h1
  · linear_combination a.x * h1

end Pl

end Pygcode
