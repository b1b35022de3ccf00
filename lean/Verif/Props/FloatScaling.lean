import Verif.Model.FloatScaling
import Verif.Props.FloatEllipse
import Verif.Props.Transforms2

/-!
# C140: scalings in double precision
-/

open Spec Real Classical FG FT

namespace FScal

/-- The functions of the library: errors of at most four units of `2 ^ -53`. -/
structure Accurate (M : MathLib) : Prop where
  atan2 : ∀ y x, |M.atan2 y x - atan2 y x| ≤ 4 / 2 ^ 53
  cos : ∀ t, |M.cos t - Real.cos t| ≤ 4 / 2 ^ 53
  sin : ∀ t, |M.sin t - Real.sin t| ≤ 4 / 2 ^ 53

theorem cos_apx {M : MathLib} (hM : Accurate M) (y x : ℝ) : Apx 8 1 (M.cos (-M.atan2 y x)) (Real.cos (_root_.atan2 y x)) := by
  refine ⟨?_, abs_cos_le_one _⟩
  have h1 := hM.cos (-M.atan2 y x)
  have h2 := (FLE.cos_lip (M.atan2 y x) (_root_.atan2 y x)).trans (hM.atan2 y x)
  rw [Real.cos_neg] at h1
  refine (abs_sub_le _ (Real.cos (M.atan2 y x)) _).trans ((add_le_add h1 h2).trans ?_)
  norm_num

theorem sin_apx {M : MathLib} (hM : Accurate M) (y x : ℝ) : Apx 8 1 (M.sin (-M.atan2 y x)) (-Real.sin (_root_.atan2 y x)) := by
  refine ⟨?_, by rw [abs_neg]; exact abs_sin_le_one _⟩
  have h1 := hM.sin (-M.atan2 y x)
  have h2 := (FLE.sin_lip (M.atan2 y x) (_root_.atan2 y x)).trans (hM.atan2 y x)
  rw [Real.sin_neg] at h1
  rw [show Real.sin (M.atan2 y x) - Real.sin (_root_.atan2 y x) = -(-Real.sin (M.atan2 y x) - -Real.sin (_root_.atan2 y x)) by ring, abs_neg] at h2
  refine (abs_sub_le _ (-Real.sin (M.atan2 y x)) _).trans ((add_le_add h1 h2).trans ?_)
  norm_num

end FScal

/-- **C140.** `Scaling.transform` in double precision, for a center and a point with coordinates of absolute value at most `R`, a nonzero direction and any
scale `s`: the coordinates of the computed point differ from those of the scaled point by at most `24 (4 |s| + 9) R / 2 ^ 53`. -/
theorem C140_scaling {M : MathLib} (hM : FScal.Accurate M) (S : Scaling) (hw : S.direction ≠ ⟨0, 0⟩) {R : ℝ} (hR : 1 ≤ R)
    (hx : |S.center.x| ≤ R) (hy : |S.center.y| ≤ R) (P : Pt) (px : |P.x| ≤ R) (py : |P.y| ≤ R) (Q : Pt)
    (hQ : IsScaled S.center S.direction S.scale P Q) :
    |(S.transformF M P).x - Q.x| ≤ 24 / 2 ^ 53 * ((4 * |S.scale| + 9) * R) ∧ |(S.transformF M P).y - Q.y| ≤ 24 / 2 ^ 53 * ((4 * |S.scale| + 9) * R) := by
  obtain ⟨⟨Q', h1, h2⟩, -⟩ := C62_scaling S hw P
  have e := isScaled_unique hw hQ h2
  subst e
  rw [S.transformPt_eq P _ _ rfl rfl] at h1
  have h1 := Except.ok.inj h1
  rw [← h1]
  have c := FScal.cos_apx hM S.direction.y S.direction.x
  have s := FScal.sin_apx hM S.direction.y S.direction.x
  have qx := (Apx.exact hx).neg
  have qy := (Apx.exact hy).neg
  have k0 := abs_nonneg S.scale
  have k := Apx.exact (show |S.scale| ≤ |S.scale| + 1 by linarith)
  have kr : 1 ≤ (|S.scale| + 1) * R := by nlinarith
  unfold Scaling.transformF
  dsimp only
  generalize M.cos (-M.atan2 S.direction.y S.direction.x) = c' at *
  generalize M.sin (-M.atan2 S.direction.y S.direction.x) = s' at *
  generalize Real.cos (atan2 S.direction.y S.direction.x) = c0 at *
  generalize Real.sin (atan2 S.direction.y S.direction.x) = s0 at *
  have X := FEll.cast (m' := 2 * R) (FEll.fadd (e3 := 1.1) (Apx.exact px) qx (by norm_num) (by norm_num) (by norm_num) (by norm_num) (by norm_num) (by linarith)) (by ring) rfl
  have Y := FEll.cast (m' := 2 * R) (FEll.fadd (e3 := 1.1) (Apx.exact py) qy (by norm_num) (by norm_num) (by norm_num) (by norm_num) (by norm_num) (by linarith)) (by ring) rfl
  generalize fl (P.x + -S.center.x) = X' at *
  generalize fl (P.y + -S.center.y) = Y' at *
  have X1 := FEll.cast (m' := 4 * R) (FEll.fsub (e3 := 11.3) (FEll.fmul (e3 := 10.2) c X (by norm_num) (by norm_num) (by norm_num) (by norm_num) (by linarith))
    (FEll.fmul (e3 := 10.2) s Y (by norm_num) (by norm_num) (by norm_num) (by norm_num) (by linarith)) (by norm_num) (by norm_num) (by norm_num) (by norm_num) (by norm_num) (by linarith)) (by ring) rfl
  have Y1 := FEll.cast (m' := 4 * R) (FEll.fadd (e3 := 11.3) (FEll.fmul (e3 := 10.2) s X (by norm_num) (by norm_num) (by norm_num) (by norm_num) (by linarith))
    (FEll.fmul (e3 := 10.2) c Y (by norm_num) (by norm_num) (by norm_num) (by norm_num) (by linarith)) (by norm_num) (by norm_num) (by norm_num) (by norm_num) (by norm_num) (by linarith)) (by ring) rfl
  generalize fl (fl (c' * X') - fl (s' * Y')) = X1' at *
  generalize fl (fl (s' * X') + fl (c' * Y')) = Y1' at *
  have X2 := FEll.fmul (e3 := 12.4) k X1 (by norm_num) (by norm_num) (by norm_num) (by norm_num) (by nlinarith)
  generalize fl (S.scale * X1') = X2' at *
  have hm : 1 / 2 ^ 60 ≤ 1 * ((|S.scale| + 1) * (4 * R)) := by nlinarith
  have X3 := FEll.fsub (e3 := 22.6) (FEll.fmul (e3 := 21.5) c X2 (by norm_num) (by norm_num) (by norm_num) (by norm_num) hm)
    (FEll.fmul (e3 := 21.5) s.neg Y1 (by norm_num) (by norm_num) (by norm_num) (by norm_num) (by linarith)) (by norm_num) (by norm_num) (by norm_num) (by norm_num) (by norm_num) (by linarith)
  have Y3 := FEll.fadd (e3 := 22.6) (FEll.fmul (e3 := 21.5) s.neg X2 (by norm_num) (by norm_num) (by norm_num) (by norm_num) hm)
    (FEll.fmul (e3 := 21.5) c Y1 (by norm_num) (by norm_num) (by norm_num) (by norm_num) (by linarith)) (by norm_num) (by norm_num) (by norm_num) (by norm_num) (by norm_num) (by linarith)
  have X4 := FEll.cast (m' := (4 * |S.scale| + 9) * R) (FEll.fsub (e3 := 24) X3 qx (by norm_num) (by norm_num) (by norm_num) (by norm_num) (by norm_num) (by linarith)) (by ring) rfl
  have Y4 := FEll.cast (m' := (4 * |S.scale| + 9) * R) (FEll.fsub (e3 := 24) Y3 qy (by norm_num) (by norm_num) (by norm_num) (by norm_num) (by norm_num) (by linarith)) (by ring) rfl
  constructor
  · refine le_trans (le_of_eq ?_) X4.1
    congr 1
    ring
  · refine le_trans (le_of_eq ?_) Y4.1
    congr 1
    ring

/-- **C140, center.** The center is mapped to itself, exactly, as the documentation says (lines 3285-3286). -/
theorem C140_center (M : MathLib) (S : Scaling) (hx : IsDouble S.center.x) (hy : IsDouble S.center.y) : S.transformF M S.center = S.center := by
  unfold Scaling.transformF
  simp [fl_zero, fl_double hx, fl_double hy]

/-- The center `(1, 1/2)`. -/
example (M : MathLib) : Scaling.transformF M ⟨⟨1, 1 / 2⟩, ⟨1, 3⟩, 2⟩ ⟨1, 1 / 2⟩ = ⟨1, 1 / 2⟩ :=
  C140_center M ⟨⟨1, 1 / 2⟩, ⟨1, 3⟩, 2⟩ ⟨1, 0, by norm_num, by norm_num, by norm_num⟩ ⟨1, -1, by norm_num, by norm_num, by norm_num⟩

/-- The exact functions are accurate. -/
example : FScal.Accurate ⟨atan2, Real.cos, Real.sin⟩ := ⟨fun y x => by norm_num, fun t => by norm_num, fun t => by norm_num⟩

/-- The example of the documentation (lines 3283-3292): `Q = (1, 1)`, `w = (1, 3)`, `s = 2` and the vector `u = 3 w`. The difference of the images of
`u` and of the origin is `s u` up to `1e-12`; the documentation tests exact equality. -/
example {M : MathLib} (hM : FScal.Accurate M) : |(Scaling.transformF M ⟨⟨1, 1⟩, ⟨1, 3⟩, 2⟩ ⟨3, 9⟩).x - (Scaling.transformF M ⟨⟨1, 1⟩, ⟨1, 3⟩, 2⟩ ⟨0, 0⟩).x - 2 * 3| ≤ 1 / 10 ^ 12 ∧
    |(Scaling.transformF M ⟨⟨1, 1⟩, ⟨1, 3⟩, 2⟩ ⟨3, 9⟩).y - (Scaling.transformF M ⟨⟨1, 1⟩, ⟨1, 3⟩, 2⟩ ⟨0, 0⟩).y - 2 * 9| ≤ 1 / 10 ^ 12 := by
  have h1 := C140_scaling hM ⟨⟨1, 1⟩, ⟨1, 3⟩, 2⟩ (by simp) (R := 9) (by norm_num) (by norm_num) (by norm_num) ⟨3, 9⟩ (by norm_num) (by norm_num)
    ⟨5.6, 16.8⟩ (by constructor <;> norm_num [dot, cross])
  have h2 := C140_scaling hM ⟨⟨1, 1⟩, ⟨1, 3⟩, 2⟩ (by simp) (R := 9) (by norm_num) (by norm_num) (by norm_num) ⟨0, 0⟩ (by norm_num) (by norm_num)
    ⟨-0.4, -1.2⟩ (by constructor <;> norm_num [dot, cross])
  dsimp only at h1 h2
  rw [abs_two] at h1 h2
  generalize Scaling.transformF M ⟨⟨1, 1⟩, ⟨1, 3⟩, 2⟩ ⟨3, 9⟩ = p at *
  generalize Scaling.transformF M ⟨⟨1, 1⟩, ⟨1, 3⟩, 2⟩ ⟨0, 0⟩ = q at *
  obtain ⟨a1, a2⟩ := h1
  obtain ⟨b1, b2⟩ := h2
  rw [abs_le] at a1 a2 b1 b2
  norm_num at a1 a2 b1 b2 ⊢
  rw [abs_le, abs_le]
  constructor <;> constructor <;> linarith [a1.1, a1.2, a2.1, a2.2, b1.1, b1.2, b2.1, b2.2]
