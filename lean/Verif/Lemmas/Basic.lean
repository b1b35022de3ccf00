import Verif.Model.Line
import Mathlib.Tactic.Ring
import Mathlib.Tactic.FieldSimp
import Mathlib.Tactic.LinearCombination
import Mathlib.Tactic.Linarith
import Mathlib.Tactic.Positivity
import Mathlib.Tactic.NormNum

open Spec

/-! ### Exceptions -/

theorem Res.bind_ok {α β : Type} {x : Res α} {f : α → Res β} {b : β} :
    (x >>= f) = .ok b ↔ ∃ a, x = .ok a ∧ f a = .ok b := by
  cases x <;> simp [bind, Except.bind]

theorem Res.pure_ok {α : Type} {a b : α} : (pure a : Res α) = .ok b ↔ a = b := by
  simp [pure, Except.pure]

theorem Res.ok_bind {α β : Type} (a : α) (f : α → Res β) : ((Except.ok a : Res α) >>= f) = f a := rfl

theorem Res.error_bind {α β : Type} (e : Err) (f : α → Res β) : ((Except.error e : Res α) >>= f) = .error e := rfl

theorem sepsilon_pos : (0 : ℝ) < sepsilon_ := by unfold sepsilon_; positivity

theorem npClose_refl (a : ℝ) : npClose a a := by unfold npClose; simp; positivity

theorem allclose_refl (P : Pt) : allclose P P := ⟨npClose_refl _, npClose_refl _⟩

theorem ne_of_not_allclose {P Q : Pt} (h : ¬ allclose P Q) : P ≠ Q := by
  rintro rfl; exact h (allclose_refl P)

theorem isclose_refl (x : ℝ) : isclose x x := by unfold isclose; simp

theorem approx_equal_refl (x : ℝ) : approx_equal_ x x := Or.inl (isclose_refl x)

theorem isclose_symm {x y : ℝ} (h : isclose x y) : isclose y x := by
  unfold isclose at *; rwa [abs_sub_comm, max_comm]

theorem approx_equal_symm {x y : ℝ} (h : approx_equal_ x y) : approx_equal_ y x :=
  h.imp isclose_symm isclose_symm

/-- Both branches of `approx_equal_` bound the difference. -/
theorem approx_equal_bound {x y : ℝ} (h : approx_equal_ x y) : |x - y| ≤ 1 / 10 ^ 9 * (max |x| |y| + 1) := by
  rcases h with h | h
  · unfold isclose at h; linarith
  · unfold isclose at h
    rw [show x + 1 - (y + 1) = x - y by ring] at h
    have h1 : |x + 1| ≤ max |x| |y| + 1 :=
      le_trans (abs_add_le _ _) (by rw [abs_one]; linarith [le_max_left |x| |y|])
    have h2 : |y + 1| ≤ max |x| |y| + 1 :=
      le_trans (abs_add_le _ _) (by rw [abs_one]; linarith [le_max_right |x| |y|])
    have := max_le h1 h2
    linarith

theorem approx_equal_zero_bound {x : ℝ} (h : approx_equal_ x 0) : |x| ≤ 2 / 10 ^ 9 := by
  have := approx_equal_bound h
  rw [sub_zero, abs_zero, max_eq_left (abs_nonneg x)] at this
  linarith

namespace Spec

theorem sqDist_nonneg (P Q : Pt) : 0 ≤ sqDist P Q := by unfold sqDist; positivity

theorem sqDist_comm (P Q : Pt) : sqDist P Q = sqDist Q P := by unfold sqDist; ring

theorem sqDist_eq_zero {P Q : Pt} : sqDist P Q = 0 ↔ P = Q := by
  constructor
  · intro h
    unfold sqDist at h
    have h1 : P.x - Q.x = 0 := by nlinarith [sq_nonneg (P.x - Q.x), sq_nonneg (P.y - Q.y)]
    have h2 : P.y - Q.y = 0 := by nlinarith [sq_nonneg (P.x - Q.x), sq_nonneg (P.y - Q.y)]
    ext <;> linarith
  · rintro rfl; simp [sqDist]

theorem sqDist_pos {P Q : Pt} (h : P ≠ Q) : 0 < sqDist P Q :=
  lt_of_le_of_ne (sqDist_nonneg _ _) (fun h' => h (sqDist_eq_zero.1 h'.symm))

theorem dist_sq (P Q : Pt) : dist P Q ^ 2 = sqDist P Q := Real.sq_sqrt (sqDist_nonneg _ _)

theorem dist_nonneg (P Q : Pt) : 0 ≤ dist P Q := Real.sqrt_nonneg _

theorem dist_comm (P Q : Pt) : dist P Q = dist Q P := by unfold dist; rw [sqDist_comm]

theorem dist_eq_iff {P Q : Pt} {r : ℝ} (hr : 0 ≤ r) : dist P Q = r ↔ sqDist P Q = r ^ 2 := by
  unfold dist
  rw [Real.sqrt_eq_iff_mul_self_eq (sqDist_nonneg _ _) hr, pow_two]

theorem dist_le_iff {P Q : Pt} {r : ℝ} (hr : 0 ≤ r) : dist P Q ≤ r ↔ sqDist P Q ≤ r ^ 2 := by
  unfold dist
  rw [Real.sqrt_le_left hr]

theorem onLine_iff_cross {A B P : Pt} (h : A ≠ B) : OnLine A B P ↔ cross (B - A) (P - A) = 0 := by
  constructor
  · rintro ⟨t, rfl⟩; simp [cross]; ring
  · intro hc
    have hd : 0 < sqDist A B := sqDist_pos h
    refine ⟨((P.x - A.x) * (B.x - A.x) + (P.y - A.y) * (B.y - A.y)) / sqDist A B, ?_⟩
    simp only [cross, Pt.sub_x, Pt.sub_y] at hc
    ext
    · simp
      field_simp
      unfold sqDist
      linear_combination -(B.y - A.y) * hc
    · simp
      field_simp
      unfold sqDist
      linear_combination (B.x - A.x) * hc

theorem onLine_left (A B : Pt) : OnLine A B A := ⟨0, by ext <;> simp⟩
theorem onLine_right (A B : Pt) : OnLine A B B := ⟨1, by ext <;> simp⟩

theorem onLine_comm {A B P : Pt} : OnLine A B P ↔ OnLine B A P := by
  constructor <;> rintro ⟨t, rfl⟩ <;> exact ⟨1 - t, by ext <;> simp <;> ring⟩

end Spec

theorem dot1_eq (P Q : Pt) : dot1_ (P - Q) = sqDist P Q := by
  simp [dot1_, dot_, sqDist]; ring

theorem distance_eq (A B : Pt) : distance_ A B = Spec.dist A B := by
  unfold distance_ vlength_ Spec.dist sqDist
  congr 1; simp; ring

/-- `collinear_` with `tol = 0` in geometric terms. -/
theorem collinear_iff (A B C : Pt) :
    collinear_ A B C ↔ (allclose A B ∨ allclose A C ∨ allclose B C) ∨ Collinear A B C := by
  unfold collinear_
  split_ifs with h
  · simp [h]
  · simp only [h, false_or]
    push Not at h
    obtain ⟨h1, h2, h3⟩ := h
    have d1 := sqDist_pos (ne_of_not_allclose h1)
    have d2 := sqDist_pos (ne_of_not_allclose h2)
    have hp := mul_pos d1 d2
    unfold Collinear cross
    set re := (B - A).x * (C - A).x + (B - A).y * (C - A).y with hre
    set im := (B - A).x * (C - A).y - (B - A).y * (C - A).x with him
    have hs : re * re + im * im = sqDist A B * sqDist A C := by
      simp only [hre, him, sqDist, Pt.sub_x, Pt.sub_y]; ring
    have hpos : 0 < re * re + im * im := by rw [hs]; exact hp
    rw [ge_iff_le, sub_zero, le_div_iff₀ hpos, one_mul]
    constructor
    · intro h'
      have : im * im ≤ 0 := by linarith
      nlinarith [mul_self_nonneg im]
    · intro h'; rw [h']; simp

theorem collinear_of_valid {l : Line} (hl : l.Valid) (M : Pt) :
    collinear_ l.A l.B M ↔ (allclose l.A M ∨ allclose l.B M) ∨ OnLine l.A l.B M := by
  rw [collinear_iff, onLine_iff_cross (ne_of_not_allclose hl)]
  unfold Line.Valid at hl
  simp [hl, Collinear]

theorem mkLine_ok {A B : Pt} {ea eb : Bool} {l : Line} :
    mkLine A B ea eb = .ok l ↔ ¬ allclose A B ∧ l = ⟨A, B, ea, eb⟩ := by
  unfold mkLine
  split_ifs with h
  · simp [h]
  · simp [h, eq_comm]

theorem mkLine_valid {A B : Pt} {ea eb : Bool} {l : Line} (h : mkLine A B ea eb = .ok l) : l.Valid := by
  obtain ⟨h', rfl⟩ := mkLine_ok.1 h; exact h'

theorem mkCircle_ok {O : Pt} {r : ℝ} {c : Circle} :
    mkCircle O r = .ok c ↔ 0 < r ∧ c = ⟨O, r⟩ := by
  unfold mkCircle
  split_ifs with h
  · simp [not_lt.2 h]
  · simp [not_le.1 h, eq_comm]

theorem mkCircle_pos {O : Pt} {r : ℝ} (h : 0 < r) : mkCircle O r = .ok ⟨O, r⟩ :=
  mkCircle_ok.2 ⟨h, rfl⟩

/-- `line_line_intersection_` solves the two line equations. -/
theorem lli_some {P1 P2 Q1 Q2 I : Pt} (h : line_line_intersection_ P1 P2 Q1 Q2 = some I) :
    cross (P2 - P1) (Q2 - Q1) ≠ 0 ∧ cross (P2 - P1) (I - P1) = 0 ∧ cross (Q2 - Q1) (I - Q1) = 0 := by
  unfold line_line_intersection_ at h
  dsimp only at h
  split_ifs at h with hD
  injection h with h
  simp only [det2x2_] at h hD
  subst h
  obtain ⟨D, hDe⟩ : ∃ D, D = (P1.x - P2.x) * (Q1.y - Q2.y) - (Q1.x - Q2.x) * (P1.y - P2.y) := ⟨_, rfl⟩
  rw [← hDe] at hD
  refine ⟨?_, ?_, ?_⟩
  · intro h0; apply hD; simp only [cross, Pt.sub_x, Pt.sub_y] at h0; linear_combination h0 + hDe
  · simp only [cross, Pt.sub_x, Pt.sub_y, Pt.div_x, Pt.div_y, ← hDe]; field_simp; rw [hDe]; ring
  · simp only [cross, Pt.sub_x, Pt.sub_y, Pt.div_x, Pt.div_y, ← hDe]; field_simp; rw [hDe]; ring

theorem lli_none_iff {P1 P2 Q1 Q2 : Pt} :
    line_line_intersection_ P1 P2 Q1 Q2 = none ↔ cross (P2 - P1) (Q2 - Q1) = 0 := by
  have : det2x2_ (P1.x - P2.x) (P1.y - P2.y) (Q1.x - Q2.x) (Q1.y - Q2.y) = cross (P2 - P1) (Q2 - Q1) := by
    simp [cross, det2x2_]; ring
  rw [← this]
  unfold line_line_intersection_
  dsimp only
  split_ifs with h <;> simp [h]

/-- Two lines with non-parallel directions have at most one common point. -/
theorem lli_unique {P1 P2 Q1 Q2 I J : Pt} (d0 : cross (P2 - P1) (Q2 - Q1) ≠ 0)
    (d1 : cross (P2 - P1) (I - P1) = 0) (d2 : cross (Q2 - Q1) (I - Q1) = 0)
    (j1 : cross (P2 - P1) (J - P1) = 0) (j2 : cross (Q2 - Q1) (J - Q1) = 0) : J = I := by
  simp only [cross, Pt.sub_x, Pt.sub_y] at *
  have e1 : ((P2.x - P1.x) * (Q2.y - Q1.y) - (P2.y - P1.y) * (Q2.x - Q1.x)) * (J.x - I.x) = 0 := by
    linear_combination (P2.x - P1.x) * (d2 - j2) - (Q2.x - Q1.x) * (d1 - j1)
  have e2 : ((P2.x - P1.x) * (Q2.y - Q1.y) - (P2.y - P1.y) * (Q2.x - Q1.x)) * (J.y - I.y) = 0 := by
    linear_combination (P2.y - P1.y) * (d2 - j2) - (Q2.y - Q1.y) * (d1 - j1)
  ext
  · rcases mul_eq_zero.1 e1 with h | h
    · exact absurd h d0
    · linarith
  · rcases mul_eq_zero.1 e2 with h | h
    · exact absurd h d0
    · linarith
