import Verif.Model.FloatFixing
import Verif.Props.FloatRadical
import Verif.Props.FloatSwap

/-!
# C145: inversions fixing two circles in double precision
-/

open Spec Real Classical FG FT

namespace FFix

/-- A coordinate of the radical center. -/
theorem coord {b P c d K q t : ℝ} (hb : 1 ≤ b) (hK : |K| ≤ b ^ 2) (hq : 1 ≤ q) (ht : t ^ 2 ≤ q) (hc : |c| ≤ b) (hd : |d| ≤ b) (hP : P = (c + d) / 2 + K / 2 * t / q) :
    |P - (c + d) / 2| ≤ b ^ 2 / 2 ∧ |P| ≤ 2 * b ^ 2 := by
  have h1 : |P - (c + d) / 2| ≤ b ^ 2 / 2 := by
    have ht' : |t| ≤ q := abs_le_of_sq_le_sq (by nlinarith) (by linarith)
    rw [hP, add_sub_cancel_left, abs_div, abs_mul, abs_of_pos (show 0 < q by linarith), div_le_iff₀ (by linarith), abs_div, abs_two]
    exact mul_le_mul (by linarith) ht' (abs_nonneg _) (by positivity)
  refine ⟨h1, ?_⟩
  have h2 : |(c + d) / 2| ≤ b := by
    rw [abs_div, abs_two]
    linarith [abs_add_le c d]
  have h3 := abs_add_le (P - (c + d) / 2) ((c + d) / 2)
  rw [sub_add_cancel] at h3
  nlinarith

theorem near {b R P m : ℝ} (hb : 1 ≤ b) (h1 : |P - m| ≤ b ^ 2 / 2) (h2 : |P| ≤ 2 * b ^ 2) (h : |R - P| ≤ |P| / 2 ^ 53 + 2 / 2 ^ 53 * |P - m| + 2 ^ (-1073 : ℤ)) :
    Apx 2 (2 * b ^ 2) R P := by
  refine ⟨h.trans ?_, h2⟩
  have ts : (2 : ℝ) ^ (-1073 : ℤ) ≤ 1 / 2 ^ 100 := by
    rw [show (1 : ℝ) / 2 ^ 100 = 2 ^ (-100 : ℤ) by norm_num]
    exact zpow_le_zpow_right₀ (by norm_num) (by norm_num)
  have b2 : 1 ≤ b ^ 2 := by nlinarith
  generalize (2 : ℝ) ^ (-1073 : ℤ) = t at *
  generalize b ^ 2 = w at *
  norm_num at *
  linarith

/-- The power of the computed point. -/
theorem power (k : Fma) {b : ℝ} {R P C : Pt} {r : ℝ} (hb : 1 ≤ b) (hx : Apx 2 (2 * b ^ 2) R.x P.x) (hy : Apx 2 (2 * b ^ 2) R.y P.y) (cx : |C.x| ≤ b) (cy : |C.y| ≤ b)
    (hr : |r| ≤ b) : Apx 9.2 (19 * b ^ 4) (fl (vdotF k (subF R C) (subF R C) - fl (r * r))) (specPower C r P) := by
  have b2 : 1 ≤ b ^ 2 := by nlinarith
  have b3 : b ≤ b ^ 2 := by nlinarith
  have b4 : b ^ 2 ≤ b ^ 4 := by nlinarith
  have dx := (FEll.fsub (e3 := 3.02) hx (Apx.exact cx) (by norm_num) le_rfl (by norm_num) (by norm_num) (by norm_num) (by norm_num at *; linarith)).mono
    (m' := 3 * b ^ 2) le_rfl (by norm_num) (by linarith)
  have dy := (FEll.fsub (e3 := 3.02) hy (Apx.exact cy) (by norm_num) le_rfl (by norm_num) (by norm_num) (by norm_num) (by norm_num at *; linarith)).mono
    (m' := 3 * b ^ 2) le_rfl (by norm_num) (by linarith)
  have sx := dx.mul (e3 := 6.05) dx (by norm_num) (by norm_num) (by norm_num) (by norm_num) (by norm_num)
  have sy := dy.mul (e3 := 6.05) dy (by norm_num) (by norm_num) (by norm_num) (by norm_num) (by norm_num)
  have m9 : 1 / 2 ^ 60 ≤ 3 * b ^ 2 * (3 * b ^ 2) := by nlinarith
  have v := Apx.vdot k (p := subF R C) (q := subF R C) sx sy (by norm_num) (by norm_num) m9 m9
  have rr := FEll.fmul (e3 := 1.1) (Apx.exact hr) (Apx.exact hr) le_rfl le_rfl (by norm_num) (by norm_num) (by nlinarith)
  have d := FEll.fsub (e3 := 9.2) v rr (by norm_num) (by norm_num) (by norm_num) (by norm_num) (by norm_num) (by nlinarith)
  have e : specPower C r P = (P.x - C.x) * (P.x - C.x) + (P.y - C.y) * (P.y - C.y) - r * r := by
    unfold specPower sqDist
    ring
  rw [e]
  exact d.mono le_rfl (by norm_num) (by nlinarith)

end FFix

/-- **C145.** For integer centers and radii up to `B ≤ 2 ^ 17`, `Inversion.from_fixing_two_circles` in double precision has no finite pole exactly for concentric
circles. Otherwise the coordinates of its pole differ from the point of the line of the centers with equal powers by at most `4 B ^ 2 / 2 ^ 53`, and its power differs
from the common power of this point by at most `175 B ^ 4 / 2 ^ 53`. -/
theorem C145_fixing (k1 k2 : Fma) (c1 c2 : Circle) {B : ℕ} (hB : B ≤ 2 ^ 17) (h1 : IntPt B c1.center) (h2 : IntPt B c2.center) (g1 : IntB B c1.radius)
    (g2 : IntB B c2.radius) :
    (Inversion.from_fixing_two_circlesF k1 k2 c1 c2 = .error .nonFinite ↔ c1.center = c2.center) ∧
    ∀ P, c1.center ≠ c2.center → OnLine c1.center c2.center P → specPower c1.center c1.radius P = specPower c2.center c2.radius P →
      ∃ i, Inversion.from_fixing_two_circlesF k1 k2 c1 c2 = .ok i ∧ |i.pole.x - P.x| ≤ 4 * B ^ 2 / 2 ^ 53 ∧ |i.pole.y - P.y| ≤ 4 * B ^ 2 / 2 ^ 53 ∧
        |i.power - specPower c1.center c1.radius P| ≤ 175 * B ^ 4 / 2 ^ 53 := by
  have up : ∀ {x : ℝ}, IntB B x → IntB (2 ^ 17) x := fun h => FI.mono h hB
  obtain ⟨m1, m2⟩ := C125_radical_center k1 c1 c2 ⟨up h1.1, up h1.2⟩ ⟨up h2.1, up h2.2⟩ (up g1) (up g2)
  constructor
  · rw [← m1]
    unfold Inversion.from_fixing_two_circlesF
    cases c1.radical_centerF k1 c2 with
    | error e =>
      change (Except.error e : Res Inversion) = _ ↔ _
      simp only [Except.error.injEq]
    | ok R => exact ⟨fun h => (by cases h), fun h => (by cases h)⟩
  · intro P hne hP hp
    obtain ⟨R, hR, -, ex, ey⟩ := m2 P hne hP hp
    obtain ⟨px, py⟩ := FX.radical_coord hne hP hp
    have a1 := FI.abs_le h1.1
    have a2 := FI.abs_le h1.2
    have a3 := FI.abs_le h2.1
    have a4 := FI.abs_le h2.2
    have a5 := FI.abs_le g1
    have a6 := FI.abs_le g2
    have hq : 1 ≤ sqDist c2.center c1.center := by
      have iq : IntB ((B + B) * (B + B) + (B + B) * (B + B)) (sqDist c2.center c1.center) := by
        have := FI.add (FI.mul (FI.sub h2.1 h1.1) (FI.sub h2.1 h1.1)) (FI.mul (FI.sub h2.2 h1.2) (FI.sub h2.2 h1.2))
        rwa [show sqDist c2.center c1.center = (c2.center.x - c1.center.x) * (c2.center.x - c1.center.x) + (c2.center.y - c1.center.y) * (c2.center.y - c1.center.y) by
          unfold sqDist; ring]
      have := FI.one_le_abs iq (sqDist_pos hne.symm).ne'
      rwa [abs_of_pos (sqDist_pos hne.symm)] at this
    have hb : (1 : ℝ) ≤ B := by
      by_contra hc
      have h0 : B = 0 := by
        have : B < 1 := by exact_mod_cast not_le.1 hc
        omega
      rw [h0, Nat.cast_zero] at a1 a2 a3 a4
      apply hne
      ext
      · rw [abs_nonpos_iff.1 a1, abs_nonpos_iff.1 a3]
      · rw [abs_nonpos_iff.1 a2, abs_nonpos_iff.1 a4]
    have hK : |c1.radius * c1.radius - c2.radius * c2.radius| ≤ (B : ℝ) ^ 2 := by
      have u1 := abs_le.1 a5
      have u2 := abs_le.1 a6
      rw [abs_le]
      constructor <;> nlinarith [sq_nonneg c1.radius, sq_nonneg c2.radius]
    obtain ⟨x1, x2⟩ := FFix.coord hb hK hq (t := c2.center.x - c1.center.x) (by unfold sqDist; nlinarith [sq_nonneg (c2.center.y - c1.center.y)]) a1 a3 px
    obtain ⟨y1, y2⟩ := FFix.coord hb hK hq (t := c2.center.y - c1.center.y) (by unfold sqDist; nlinarith [sq_nonneg (c2.center.x - c1.center.x)]) a2 a4 py
    have nx := FFix.near hb x1 x2 ex
    have ny := FFix.near hb y1 y2 ey
    have pw := FFix.power k2 hb nx ny a1 a2 a5
    refine ⟨⟨R, c1.powerF k2 R⟩, by unfold Inversion.from_fixing_two_circlesF; rw [hR]; rfl, nx.1.trans (le_of_eq (by ring)), ny.1.trans (le_of_eq (by ring)), ?_⟩
    refine pw.1.trans ?_
    have : (0 : ℝ) ≤ (B : ℝ) ^ 4 := by positivity
    norm_num
    linarith

/-- For integer data up to 100 the computed power has the sign of the power, unless the circles touch. -/
theorem C145_sign (k1 k2 : Fma) (c1 c2 : Circle) (h1 : IntPt 100 c1.center) (h2 : IntPt 100 c2.center) (g1 : IntB 100 c1.radius) (g2 : IntB 100 c2.radius) {P : Pt}
    (hne : c1.center ≠ c2.center) (hP : OnLine c1.center c2.center P) (hp : specPower c1.center c1.radius P = specPower c2.center c2.radius P)
    (h0 : specPower c1.center c1.radius P ≠ 0) :
    ∃ i, Inversion.from_fixing_two_circlesF k1 k2 c1 c2 = .ok i ∧ 0 < i.power * specPower c1.center c1.radius P := by
  obtain ⟨i, hi, -, -, e⟩ := (C145_fixing k1 k2 c1 c2 (B := 100) (by norm_num) h1 h2 g1 g2).2 P hne hP hp
  refine ⟨i, hi, ?_⟩
  have iq := FI.add (FI.mul (FI.sub h2.1 h1.1) (FI.sub h2.1 h1.1)) (FI.mul (FI.sub h2.2 h1.2) (FI.sub h2.2 h1.2))
  rw [show (c2.center.x - c1.center.x) * (c2.center.x - c1.center.x) + (c2.center.y - c1.center.y) * (c2.center.y - c1.center.y) = sqDist c2.center c1.center by
    unfold sqDist; ring] at iq
  have q0 := sqDist_pos hne.symm
  have q1 : sqDist c2.center c1.center ≤ 80000 := by
    have := (le_abs_self _).trans (FI.abs_le iq)
    norm_num at this
    linarith
  -- four times the squared distance times the power is an integer
  have val : 4 * sqDist c2.center c1.center * specPower c1.center c1.radius P =
      (sqDist c2.center c1.center + (c1.radius * c1.radius - c2.radius * c2.radius)) * (sqDist c2.center c1.center + (c1.radius * c1.radius - c2.radius * c2.radius)) -
        (sqDist c2.center c1.center * (c1.radius * c1.radius) + sqDist c2.center c1.center * (c1.radius * c1.radius) +
          (sqDist c2.center c1.center * (c1.radius * c1.radius) + sqDist c2.center c1.center * (c1.radius * c1.radius))) := by
    obtain ⟨px, py⟩ := FX.radical_coord hne hP hp
    have e1 : sqDist c1.center P = (sqDist c2.center c1.center + (c1.radius * c1.radius - c2.radius * c2.radius)) ^ 2 / (4 * sqDist c2.center c1.center) := by
      have hx : P.x - c1.center.x = (sqDist c2.center c1.center + (c1.radius * c1.radius - c2.radius * c2.radius)) / (2 * sqDist c2.center c1.center) * (c2.center.x - c1.center.x) := by
        rw [px]; field_simp; ring
      have hy : P.y - c1.center.y = (sqDist c2.center c1.center + (c1.radius * c1.radius - c2.radius * c2.radius)) / (2 * sqDist c2.center c1.center) * (c2.center.y - c1.center.y) := by
        rw [py]; field_simp; ring
      have : sqDist c1.center P = ((sqDist c2.center c1.center + (c1.radius * c1.radius - c2.radius * c2.radius)) / (2 * sqDist c2.center c1.center)) ^ 2 * sqDist c2.center c1.center := by
        rw [show sqDist c1.center P = (P.x - c1.center.x) ^ 2 + (P.y - c1.center.y) ^ 2 by unfold sqDist; ring, hx, hy]
        generalize (sqDist c2.center c1.center + (c1.radius * c1.radius - c2.radius * c2.radius)) / (2 * sqDist c2.center c1.center) = u
        unfold sqDist
        ring
      rw [this]
      field_simp
      ring
    have e2 : specPower c1.center c1.radius P = sqDist c1.center P - c1.radius ^ 2 := by
      unfold specPower sqDist
      ring
    rw [e2, e1]
    field_simp
    ring
  have i1 := FI.add iq (FI.sub (FI.mul g1 g1) (FI.mul g2 g2))
  have i2 := FI.mul iq (FI.mul g1 g1)
  have gap := FI.one_le_abs (FI.sub (FI.mul i1 i1) (FI.add (FI.add i2 i2) (FI.add i2 i2))) (by rw [← val]; positivity)
  rw [← val, abs_mul, abs_of_pos (by positivity)] at gap
  have low : 1 / 320000 ≤ |specPower c1.center c1.radius P| := by
    rw [div_le_iff₀ (by norm_num)]
    nlinarith [abs_nonneg (specPower c1.center c1.radius P)]
  have er := abs_le.1 e
  rcases lt_or_gt_of_ne h0 with h | h
  · rw [abs_of_neg h] at low
    exact mul_pos_of_neg_of_neg (by norm_num at er; linarith [er.2]) h
  · rw [abs_of_pos h] at low
    exact mul_pos (by norm_num at er; linarith [er.1]) h

-- Circles of radii 5 and 4 around the origin and `(3, 0)`: the pole is near `(3, 0)` and the power is near -16 and negative.
example (k1 k2 : Fma) : ∃ i, Inversion.from_fixing_two_circlesF k1 k2 ⟨⟨0, 0⟩, 5⟩ ⟨⟨3, 0⟩, 4⟩ = .ok i ∧ |i.pole.x - 3| ≤ 4 * 5 ^ 2 / 2 ^ 53 ∧
    |i.power - (-16)| ≤ 175 * 5 ^ 4 / 2 ^ 53 := by
  have z : IntB 5 0 := ⟨0, by norm_num, by norm_num⟩
  have s : specPower ⟨0, 0⟩ 5 ⟨3, 0⟩ = -16 := by norm_num [specPower, sqDist]
  obtain ⟨i, hi, a, -, c⟩ := (C145_fixing k1 k2 ⟨⟨0, 0⟩, 5⟩ ⟨⟨3, 0⟩, 4⟩ (B := 5) (by norm_num) ⟨z, z⟩ ⟨⟨3, by norm_num, by norm_num⟩, z⟩
    ⟨5, by norm_num, by norm_num⟩ ⟨4, by norm_num, by norm_num⟩).2 ⟨3, 0⟩ (by intro h; norm_num [Pt.ext_iff] at h) ⟨1, by ext <;> simp⟩
    (by norm_num [specPower, sqDist])
  refine ⟨i, hi, by exact_mod_cast a, ?_⟩
  dsimp only at c
  rw [s] at c
  exact_mod_cast c

example (k1 k2 : Fma) : ∃ i, Inversion.from_fixing_two_circlesF k1 k2 ⟨⟨0, 0⟩, 5⟩ ⟨⟨3, 0⟩, 4⟩ = .ok i ∧ i.power < 0 := by
  have z : IntB 100 0 := ⟨0, by norm_num, by norm_num⟩
  have s : specPower ⟨0, 0⟩ 5 ⟨3, 0⟩ = -16 := by norm_num [specPower, sqDist]
  obtain ⟨i, hi, a⟩ := C145_sign k1 k2 ⟨⟨0, 0⟩, 5⟩ ⟨⟨3, 0⟩, 4⟩ ⟨z, z⟩ ⟨⟨3, by norm_num, by norm_num⟩, z⟩ ⟨5, by norm_num, by norm_num⟩
    ⟨4, by norm_num, by norm_num⟩ (P := ⟨3, 0⟩) (by intro h; norm_num [Pt.ext_iff] at h) ⟨1, by ext <;> simp⟩ (by norm_num [specPower, sqDist]) (by rw [s]; norm_num)
  refine ⟨i, hi, ?_⟩
  dsimp only at a
  rw [s] at a
  linarith
