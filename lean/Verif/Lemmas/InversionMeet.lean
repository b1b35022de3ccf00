import Verif.Lemmas.InversionStep

/-! How two curves with integer coefficients meet. -/

open Spec Real Classical

namespace Inversions

/-- The product of two vectors is an integer. -/
theorem inner_int {u v : V} (hu : Good u) (hv : Good v) : ∃ t : ℤ, 2 * (u.b * v.b + u.c * v.c) - (u.A * v.E + v.A * u.E) = 2 * t := by
  obtain ⟨-, k, hk⟩ := hu
  obtain ⟨-, m, hm⟩ := hv
  refine ⟨u.b * v.b + u.c * v.c - (u.E * v.E + k * v.E + m * u.E), ?_⟩
  have h1 : u.A = u.E + 2 * k := by linarith
  have h2 : v.A = v.E + 2 * m := by linarith
  rw [h1, h2]; ring

/-- The normal at a point. -/
noncomputable def normal (v : V) : XPt → ℝ × ℝ
  | .fin P => (v.A * P.x / 2 - v.b, v.A * P.y / 2 - v.c)
  | .inf => (v.b, v.c)

theorem normal_inner {u v : V} {t : ℤ} (ht : 2 * (u.b * v.b + u.c * v.c) - (u.A * v.E + v.A * u.E) = 2 * t) {X : XPt} (hu : form u X = 0) (hv : form v X = 0) :
    (normal u X).1 * (normal v X).1 + (normal u X).2 * (normal v X).2 = t := by
  have ht' : 2 * ((u.b : ℝ) * v.b + u.c * v.c) - (u.A * v.E + v.A * u.E) = 2 * t := by exact_mod_cast ht
  cases X with
  | inf =>
    simp only [form] at hu hv
    simp only [normal]
    rw [hu, hv] at ht'; linarith
  | fin P =>
    simp only [form] at hu hv
    simp only [normal]
    linear_combination ht' / 2 + (v.A : ℝ) / 4 * hu + (u.A : ℝ) / 4 * hv

/-- The combination of the two equations. -/
def comb (u v : V) (t : ℤ) : V := ⟨u.A - t * v.A, u.b - t * v.b, u.c - t * v.c, u.E - t * v.E⟩

theorem form_comb (u v : V) (t : ℤ) (X : XPt) : form (comb u v t) X = form u X - t * form v X := by
  cases X <;> simp only [form, comb] <;> push_cast <;> ring

theorem normal_comb (u v : V) (t : ℤ) (X : XPt) : normal (comb u v t) X = ((normal u X).1 - t * (normal v X).1, (normal u X).2 - t * (normal v X).2) := by
  cases X <;> simp only [normal, comb] <;> push_cast <;> ext <;> simp <;> ring

theorem zero_of_two {w : V} {X Y : XPt} (hne : X ≠ Y) (h1 : form w X = 0) (h2 : form w Y = 0) (n1 : normal w X = (0, 0)) (n2 : normal w Y = (0, 0)) :
    w = ⟨0, 0, 0, 0⟩ := by
  have fin_inf : ∀ P : Pt, form w (.fin P) = 0 → form w .inf = 0 → normal w .inf = (0, 0) → w = ⟨0, 0, 0, 0⟩ := by
    intro P h1 h2 h3
    simp only [form, normal, Prod.mk.injEq] at h1 h2 h3
    rw [h2, h3.1, h3.2] at h1
    have hE : (w.E : ℝ) = 0 := by linarith
    obtain ⟨A, b, c, E⟩ := w
    simp only [Int.cast_eq_zero] at h2 h3 hE
    simp [h2, h3.1, h3.2, hE]
  cases X with
  | inf =>
    cases Y with
    | inf => exact absurd rfl hne
    | fin Q => exact fin_inf Q h2 h1 n1
  | fin P =>
    cases Y with
    | inf => exact fin_inf P h1 h2 n2
    | fin Q =>
      have hA : (w.A : ℝ) = 0 := by
        by_contra hA
        apply hne
        simp only [normal, Prod.mk.injEq] at n1 n2
        have e1 : (w.A : ℝ) * (P.x - Q.x) = 0 := by linarith
        have e2 : (w.A : ℝ) * (P.y - Q.y) = 0 := by linarith
        congr 1
        ext
        · linarith [(mul_eq_zero.1 e1).resolve_left hA]
        · linarith [(mul_eq_zero.1 e2).resolve_left hA]
      have hn : normal w .inf = (0, 0) := by
        simp only [normal, Prod.mk.injEq, hA] at n1 ⊢
        constructor <;> linarith
      exact fin_inf P h1 hA hn

/-- Two curves of the orbit. -/
theorem meet {u v : V} (hu : Good u) (hv : Good v) {t : ℤ} (ht : 2 * (u.b * v.b + u.c * v.c) - (u.A * v.E + v.A * u.E) = 2 * t) :
    zset u = zset v ∨ t = 0 ∨ (∃! X, X ∈ zset u ∧ X ∈ zset v) ∨ Disjoint (zset u) (zset v) := by
  have tu : 2 * (u.b * u.b + u.c * u.c) - (u.A * u.E + u.A * u.E) = 2 * 1 := by linarith [hu.1]
  have tv : 2 * (v.b * v.b + v.c * v.c) - (v.A * v.E + v.A * v.E) = 2 * 1 := by linarith [hv.1]
  have key : ∀ X, form u X = 0 → form v X = 0 → (t : ℝ) ^ 2 ≤ 1 := by
    intro X h1 h2
    have a1 := normal_inner ht h1 h2
    have a2 := normal_inner tu h1 h1
    have a3 := normal_inner tv h2 h2
    rw [Int.cast_one] at a2 a3
    rw [← a1]
    nlinarith [sq_nonneg ((normal u X).1 * (normal v X).2 - (normal u X).2 * (normal v X).1)]
  by_cases h0 : t = 0
  · exact Or.inr (Or.inl h0)
  by_cases h1 : t ^ 2 = 1
  · have h1' : (t : ℝ) ^ 2 = 1 := by exact_mod_cast h1
    by_cases hw : comb u v t = ⟨0, 0, 0, 0⟩
    · left
      ext X
      have := form_comb u v t X
      rw [hw] at this
      have hz : form ⟨0, 0, 0, 0⟩ X = 0 := by cases X <;> simp [form]
      rw [hz] at this
      have ht0 : (t : ℝ) ≠ 0 := by exact_mod_cast h0
      change form u X = 0 ↔ form v X = 0
      constructor
      · intro h
        rw [h] at this
        have : (t : ℝ) * form v X = 0 := by linarith
        exact (mul_eq_zero.1 this).resolve_left ht0
      · intro h
        rw [h] at this; linarith
    · right; right; left
      have iso : (comb u v t).b ^ 2 + (comb u v t).c ^ 2 - (comb u v t).A * (comb u v t).E = 0 := by
        simp only [comb]
        linear_combination hu.1 - t * ht + t ^ 2 * hv.1 - h1
      have iu : 2 * (u.b * (comb u v t).b + u.c * (comb u v t).c) - (u.A * (comb u v t).E + (comb u v t).A * u.E) = 0 := by
        simp only [comb]
        linear_combination 2 * hu.1 - t * ht - 2 * h1
      have iv : 2 * (v.b * (comb u v t).b + v.c * (comb u v t).c) - (v.A * (comb u v t).E + (comb u v t).A * v.E) = 0 := by
        simp only [comb]
        linear_combination ht - 2 * t * hv.1
      have uniq : ∀ X Y, form u X = 0 → form v X = 0 → form u Y = 0 → form v Y = 0 → X = Y := by
        have nz : ∀ X, form u X = 0 → form v X = 0 → form (comb u v t) X = 0 ∧ normal (comb u v t) X = (0, 0) := by
          intro X h1 h2
          refine ⟨by rw [form_comb, h1, h2]; ring, ?_⟩
          have a1 := normal_inner ht h1 h2
          have a2 := normal_inner tu h1 h1
          have a3 := normal_inner tv h2 h2
          rw [Int.cast_one] at a2 a3
          rw [normal_comb]
          have hs : ((normal u X).1 - t * (normal v X).1) ^ 2 + ((normal u X).2 - t * (normal v X).2) ^ 2 = 0 := by
            linear_combination a2 - 2 * t * a1 + (t : ℝ) ^ 2 * a3 - h1'
          ext
          · exact pow_eq_zero_iff (two_ne_zero) |>.1 (by nlinarith [sq_nonneg ((normal u X).1 - t * (normal v X).1), sq_nonneg ((normal u X).2 - t * (normal v X).2)])
          · exact pow_eq_zero_iff (two_ne_zero) |>.1 (by nlinarith [sq_nonneg ((normal u X).1 - t * (normal v X).1), sq_nonneg ((normal u X).2 - t * (normal v X).2)])
        intro X Y x1 x2 y1 y2
        by_contra hne
        exact hw (zero_of_two hne (nz X x1 x2).1 (nz Y y1 y2).1 (nz X x1 x2).2 (nz Y y1 y2).2)
      obtain ⟨w, hwe⟩ : ∃ w, w = comb u v t := ⟨_, rfl⟩
      rw [← hwe] at hw iso iu iv
      have ex : ∃ X, form u X = 0 ∧ form v X = 0 := by
        by_cases hA : w.A = 0
        · have hbc : w.b ^ 2 + w.c ^ 2 = 0 := by rw [hA] at iso; linarith
          have hb : w.b = 0 := pow_eq_zero_iff (two_ne_zero) |>.1 (by nlinarith [sq_nonneg w.b, sq_nonneg w.c])
          have hc : w.c = 0 := pow_eq_zero_iff (two_ne_zero) |>.1 (by nlinarith [sq_nonneg w.b, sq_nonneg w.c])
          have hE : w.E ≠ 0 := by
            intro hE; apply hw
            obtain ⟨A, b, c, E⟩ := w
            simp only at hA hb hc hE
            simp [hA, hb, hc, hE]
          rw [hA, hb, hc] at iu iv
          refine ⟨.inf, ?_, ?_⟩
          · have : u.A * w.E = 0 := by linarith
            simp only [form]; exact_mod_cast (mul_eq_zero.1 this).resolve_right hE
          · have : v.A * w.E = 0 := by linarith
            simp only [form]; exact_mod_cast (mul_eq_zero.1 this).resolve_right hE
        · have hA' : (w.A : ℝ) ≠ 0 := by exact_mod_cast hA
          have iso' : (w.b : ℝ) ^ 2 + (w.c : ℝ) ^ 2 - w.A * w.E = 0 := by exact_mod_cast iso
          have on : ∀ z : V, 2 * (z.b * w.b + z.c * w.c) - (z.A * w.E + w.A * z.E) = 0 → form z (.fin ⟨2 * w.b / w.A, 2 * w.c / w.A⟩) = 0 := by
            intro z hz
            have hz' : 2 * ((z.b : ℝ) * w.b + z.c * w.c) - (z.A * w.E + w.A * z.E) = 0 := by exact_mod_cast hz
            simp only [form]
            field_simp
            linear_combination 2 * (z.A : ℝ) * iso' - 2 * (w.A : ℝ) * hz'
          exact ⟨_, on u iu, on v iv⟩
      obtain ⟨X, x1, x2⟩ := ex
      exact ⟨X, ⟨x1, x2⟩, fun Y hY => uniq Y X hY.1 hY.2 x1 x2⟩
  · right; right; right
    rw [Set.disjoint_left]
    intro X x1 x2
    have := key X x1 x2
    have h3 : t ^ 2 ≤ 1 := by exact_mod_cast this
    apply h1
    have h4 : 1 ≤ t ^ 2 := by
      have := Int.one_le_abs h0
      rw [← sq_abs]; nlinarith
    linarith

theorem cross_of_zero {u v : V} {g h : GCircle} (hu : Good u) (hv : Good v) (hg : Rep u g) (hh : Rep v h)
    (ht : 2 * (u.b * v.b + u.c * v.c) - (u.A * v.E + v.A * u.E) = 0) : CrossAtRight g h := by
  have ht' : 2 * ((u.b : ℝ) * v.b + u.c * v.c) - (u.A * v.E + v.A * u.E) = 0 := by exact_mod_cast ht
  have hu' : (u.b : ℝ) ^ 2 + (u.c : ℝ) ^ 2 - u.A * u.E = 1 := by exact_mod_cast hu.1
  have hv' : (v.b : ℝ) ^ 2 + (v.c : ℝ) ^ 2 - v.A * v.E = 1 := by exact_mod_cast hv.1
  cases g with
  | circle c =>
    obtain ⟨a1, a2, a3⟩ := hg
    have hA : (u.A : ℝ) ≠ 0 := by exact_mod_cast a1
    cases h with
    | circle d =>
      obtain ⟨b1, b2, b3⟩ := hh
      have hB : (v.A : ℝ) ≠ 0 := by exact_mod_cast b1
      unfold CrossAtRight Orthogonal sqDist
      dsimp only
      rw [a2, a3, b2, b3, div_pow, div_pow, sq_abs, sq_abs]
      dsimp only
      field_simp
      linear_combination (v.A : ℝ) ^ 2 * hu' + (u.A : ℝ) ^ 2 * hv' - (u.A : ℝ) * v.A * ht'
    | line m =>
      obtain ⟨b1, b2, b3⟩ := hh
      unfold CrossAtRight
      dsimp only
      rw [b3, a2]
      rw [b1, Int.cast_zero] at ht'
      field_simp
      linarith
  | line l =>
    obtain ⟨a1, a2, a3⟩ := hg
    cases h with
    | circle d =>
      obtain ⟨b1, b2, b3⟩ := hh
      have hB : (v.A : ℝ) ≠ 0 := by exact_mod_cast b1
      unfold CrossAtRight
      dsimp only
      rw [a3, b2]
      rw [a1, Int.cast_zero] at ht'
      field_simp
      linarith
    | line m =>
      obtain ⟨b1, b2, b3⟩ := hh
      rw [a1, b1, Int.cast_zero] at ht'
      rw [a1, Int.cast_zero] at hu'
      rw [b1, Int.cast_zero] at hv'
      have p1 := (a3 l.A).1 ⟨0, by ext <;> simp⟩
      have p2 := (a3 l.B).1 ⟨1, by ext <;> simp⟩
      have q1 := (b3 m.A).1 ⟨0, by ext <;> simp⟩
      have q2 := (b3 m.B).1 ⟨1, by ext <;> simp⟩
      unfold CrossAtRight Perp dot
      dsimp only
      simp only [Pt.sub_x, Pt.sub_y]
      have h1 : (u.b : ℝ) * (l.B.x - l.A.x) + u.c * (l.B.y - l.A.y) = 0 := by linarith
      have h2 : (v.b : ℝ) * (m.B.x - m.A.x) + v.c * (m.B.y - m.A.y) = 0 := by linarith
      obtain ⟨x, hx⟩ : ∃ x, x = l.B.x - l.A.x := ⟨_, rfl⟩
      obtain ⟨y, hy⟩ : ∃ y, y = l.B.y - l.A.y := ⟨_, rfl⟩
      obtain ⟨z, hz⟩ : ∃ z, z = m.B.x - m.A.x := ⟨_, rfl⟩
      obtain ⟨s, hs⟩ : ∃ s, s = m.B.y - m.A.y := ⟨_, rfl⟩
      rw [← hx, ← hy] at h1
      rw [← hz, ← hs] at h2
      rw [← hx, ← hy, ← hz, ← hs]
      -- `(x, y) = α (-u.c, u.b)` and `(z, s) = β (-v.c, v.b)`
      obtain ⟨α, hα⟩ : ∃ α, α = -u.c * x + u.b * y := ⟨_, rfl⟩
      obtain ⟨β, hβ⟩ : ∃ β, β = -v.c * z + v.b * s := ⟨_, rfl⟩
      have ex : x = -u.c * α := by rw [hα]; linear_combination -x * hu' + (u.b : ℝ) * h1
      have ey : y = u.b * α := by rw [hα]; linear_combination -y * hu' + (u.c : ℝ) * h1
      have ez : z = -v.c * β := by rw [hβ]; linear_combination -z * hv' + (v.b : ℝ) * h2
      have es : s = v.b * β := by rw [hβ]; linear_combination -s * hv' + (v.c : ℝ) * h2
      rw [ex, ey, ez, es]
      linear_combination α * β / 2 * ht'

end Inversions
