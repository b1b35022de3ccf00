import Verif.Spec.Inversions
import Verif.Lemmas.Gasket
import Verif.Props.InvLine
import Verif.Model.Inversions

/-! Curves of the form `A (x² + y²) / 2 - 2 (b₁ x + b₂ y) + 2 E = 0` with integers `b₁² + b₂² - A E = 1`, and the five inversions of
`examples/Inversions.py` on them. -/

open Spec Real Classical

namespace Inversions

/-- The coefficients of a curve. -/
structure V where
  A : ℤ
  b : ℤ
  c : ℤ
  E : ℤ
deriving DecidableEq

/-- The equation of the curve. -/
noncomputable def form (v : V) : XPt → ℝ
  | .fin P => v.A * (P.x ^ 2 + P.y ^ 2) / 2 - 2 * (v.b * P.x + v.c * P.y) + 2 * v.E
  | .inf => v.A

def zset (v : V) : Set XPt := {X | form v X = 0}

/-- The vectors of the orbit. -/
def Good (v : V) : Prop := v.b ^ 2 + v.c ^ 2 - v.A * v.E = 1 ∧ ∃ k, v.A - v.E = 2 * k

/-- The centers of the circles. -/
def px : ℕ → ℤ
  | 0 => 1
  | 2 => -1
  | _ => 0

def py : ℕ → ℤ
  | 1 => 1
  | 3 => -1
  | _ => 0

/-- The radii. -/
def rad : ℕ → ℤ
  | 0 | 1 | 2 | 3 => 1
  | _ => 2

/-- The reflection of number `i`. -/
def refl (i : ℕ) (v : V) : V :=
  if i = 4 then ⟨v.E, v.b, v.c, v.A⟩
  else
    ⟨v.A - 4 * (v.b * px i + v.c * py i) + 4 * v.E, v.b - 2 * (v.b * px i + v.c * py i) * px i + 2 * v.E * px i,
      v.c - 2 * (v.b * px i + v.c * py i) * py i + 2 * v.E * py i, v.E⟩

/-- The five circles. -/
def base : ℕ → V
  | 0 => ⟨2, 1, 0, 0⟩
  | 1 => ⟨2, 0, 1, 0⟩
  | 2 => ⟨2, -1, 0, 0⟩
  | 3 => ⟨2, 0, -1, 0⟩
  | _ => ⟨-1, 0, 0, 1⟩

theorem pole_unit {i : ℕ} (hi : i < 5) (h4 : i ≠ 4) : px i ^ 2 + py i ^ 2 = 1 := by
  interval_cases i <;> first | rfl | omega

theorem good_base {i : ℕ} (hi : i < 5) : Good (base i) := by
  interval_cases i
  all_goals refine ⟨by decide, ?_⟩
  · exact ⟨1, rfl⟩
  · exact ⟨1, rfl⟩
  · exact ⟨1, rfl⟩
  · exact ⟨1, rfl⟩
  · exact ⟨-1, rfl⟩

theorem good_refl {i : ℕ} (hi : i < 5) {v : V} (h : Good v) : Good (refl i v) := by
  obtain ⟨h1, k, h2⟩ := h
  by_cases h4 : i = 4
  · unfold refl; rw [if_pos h4]
    exact ⟨by dsimp only; linarith, -k, by dsimp only; linarith⟩
  · have hu := pole_unit hi h4
    unfold refl; rw [if_neg h4]
    unfold Good
    dsimp only
    obtain ⟨p, hp⟩ : ∃ p, p = px i := ⟨_, rfl⟩
    obtain ⟨q, hq⟩ : ∃ q, q = py i := ⟨_, rfl⟩
    rw [← hp, ← hq] at hu
    rw [← hp, ← hq]
    refine ⟨?_, k - 2 * (v.b * p + v.c * q) + 2 * v.E, by linarith⟩
    linear_combination h1 + (4 * (v.b * p + v.c * q - v.E) ^ 2) * hu

/-- The center of a circle. -/
noncomputable def pole (i : ℕ) : Pt := ⟨px i, py i⟩

noncomputable def power (i : ℕ) : ℝ := (rad i : ℝ) ^ 2

theorem power_ne {i : ℕ} (hi : i < 5) : power i ≠ 0 := by
  unfold power; interval_cases i <;> norm_num [rad]

theorem power_eq {i : ℕ} (hi : i < 5) : power i = if i = 4 then 4 else 1 := by
  unfold power; interval_cases i <;> norm_num [rad]

theorem form_inv {i : ℕ} (hi : i < 5) (v : V) (X : XPt) : form (refl i v) (xinv (pole i) (power i) X) = 0 ↔ form v X = 0 := by
  rw [power_eq hi]
  by_cases h4 : i = 4
  · subst h4
    rw [if_pos rfl]
    cases X with
    | inf => simp [xinv, form, refl, pole, px, py]
    | fin P =>
      by_cases hP : P = pole 4
      · subst hP; simp [xinv, form, refl, pole, px, py]
      · have hs := sqDist_pos hP
        simp only [xinv, if_neg hP]
        have es : sqDist P (pole 4) = P.x ^ 2 + P.y ^ 2 := by simp [sqDist, pole, px, py]
        rw [es] at hs ⊢
        have : form (refl 4 v) (.fin (pole 4 + (4 / (P.x ^ 2 + P.y ^ 2)) • (P - pole 4))) = 4 / (P.x ^ 2 + P.y ^ 2) * form v (.fin P) := by
          simp only [form, refl, if_true, pole, px, py, Pt.add_x, Pt.add_y, Pt.smul_x, Pt.smul_y, Pt.sub_x, Pt.sub_y, Int.cast_zero, zero_add, sub_zero]
          field_simp
          ring
        rw [this]
        constructor
        · intro h
          exact (mul_eq_zero.1 h).resolve_left (by positivity)
        · intro h; rw [h, mul_zero]
  · rw [if_neg h4]
    have hu := pole_unit hi h4
    have hu' : ((px i : ℤ) : ℝ) ^ 2 + ((py i : ℤ) : ℝ) ^ 2 = 1 := by exact_mod_cast hu
    unfold refl
    rw [if_neg h4]
    unfold pole
    obtain ⟨p, hp⟩ : ∃ p : ℝ, p = px i := ⟨_, rfl⟩
    obtain ⟨q, hq⟩ : ∃ q : ℝ, q = py i := ⟨_, rfl⟩
    rw [← hp, ← hq] at hu'
    cases X with
    | inf =>
      simp only [xinv, form]
      push_cast
      rw [← hp, ← hq]
      have : ((v.A : ℝ) - 4 * (v.b * p + v.c * q) + 4 * v.E) * (p ^ 2 + q ^ 2) / 2 -
          2 * ((v.b - 2 * (v.b * p + v.c * q) * p + 2 * v.E * p) * p + (v.c - 2 * (v.b * p + v.c * q) * q + 2 * v.E * q) * q) +
          2 * v.E = v.A / 2 := by
        linear_combination ((v.A : ℝ) / 2 + 2 * (v.b * p + v.c * q) - 2 * v.E) * hu'
      rw [this]
      constructor
      · intro h; linarith
      · intro h; rw [h]; norm_num
    | fin P =>
      by_cases hP : P = ⟨(px i : ℝ), (py i : ℝ)⟩
      · subst hP
        simp only [xinv, if_true, form]
        push_cast
        rw [← hp, ← hq]
        constructor
        · intro h; linear_combination h / 2 + (v.A : ℝ) / 2 * hu'
        · intro h; linear_combination 2 * h - (v.A : ℝ) * hu'
      · have hs := sqDist_pos hP
        simp only [xinv, if_neg hP]
        rw [← hp, ← hq] at hs ⊢
        obtain ⟨s, hs'⟩ : ∃ s, s = sqDist P ⟨p, q⟩ := ⟨_, rfl⟩
        rw [← hs'] at hs ⊢
        have es : s = (P.x - p) ^ 2 + (P.y - q) ^ 2 := by rw [hs']; simp [sqDist]
        obtain ⟨t, ht⟩ : ∃ t, t = 1 / s := ⟨_, rfl⟩
        have hst : t * s = 1 := by rw [ht]; field_simp
        have ht0 : t ≠ 0 := by rw [ht]; positivity
        rw [← ht]
        simp only [form, Pt.add_x, Pt.add_y, Pt.smul_x, Pt.smul_y, Pt.sub_x, Pt.sub_y]
        push_cast
        rw [← hp, ← hq]
        rw [es] at hst
        have key : ((v.A : ℝ) - 4 * (v.b * p + v.c * q) + 4 * v.E) * ((p + t * (P.x - p)) ^ 2 + (q + t * (P.y - q)) ^ 2) / 2 -
            2 * ((v.b - 2 * (v.b * p + v.c * q) * p + 2 * v.E * p) * (p + t * (P.x - p)) +
              (v.c - 2 * (v.b * p + v.c * q) * q + 2 * v.E * q) * (q + t * (P.y - q))) + 2 * v.E =
            t * (v.A * (P.x ^ 2 + P.y ^ 2) / 2 - 2 * (v.b * P.x + v.c * P.y) + 2 * v.E) := by
          linear_combination (((v.A : ℝ) - 4 * (v.b * p + v.c * q) + 4 * v.E) * t / 2 - v.A / 2) * hst + ((v.A : ℝ) / 2 * (1 - t) + 2 * (v.b * p + v.c * q) - 2 * v.E) * hu'
        rw [key]
        constructor
        · intro h
          exact (mul_eq_zero.1 h).resolve_left ht0
        · intro h; rw [h, mul_zero]

theorem zset_refl {i : ℕ} (hi : i < 5) (v : V) : zset (refl i v) = xinv (pole i) (power i) '' zset v := by
  have hinv := xinv_involutive (pole i) (power_ne hi)
  ext Y
  constructor
  · intro hY
    refine ⟨xinv (pole i) (power i) Y, ?_, hinv Y⟩
    have := form_inv hi v (xinv (pole i) (power i) Y)
    rw [hinv Y] at this
    exact this.1 hY
  · rintro ⟨X, hX, rfl⟩
    exact (form_inv hi v X).2 hX

end Inversions
