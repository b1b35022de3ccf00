import Verif.Lemmas.InversionWords
import Verif.Props.Equality
import Verif.Props.TriangularGasketRun
import Verif.Props.UniqueWith

/-! The comparison of `examples/Inversions.py` on curves with integer coefficients. -/

open Spec Real Classical

namespace Inversions

/-- The comparison of the script. -/
def fv (u v : V) : Bool :=
  if u.A = 0 then decide (v.A = 0) && decide (u.b * u.b = v.b * v.b) && decide (u.E * u.E = v.E * v.E)
  else decide (u = v) || decide (u = ⟨-v.A, -v.b, -v.c, -v.E⟩)

def Small (v : V) : Prop := |v.A| ≤ 100 ∧ |v.b| ≤ 100 ∧ |v.c| ≤ 100 ∧ |v.E| ≤ 100

instance (v : V) : Decidable (Small v) := by unfold Small; infer_instance

theorem int_eq_zero {n : ℤ} (h : |(n : ℝ)| < 1) : n = 0 := by
  by_contra h0
  have := one_le_abs h0
  linarith

theorem radius_eq {A B : ℤ} (hA : A ≠ 0) (hB : B ≠ 0) (sA : |A| ≤ 100) (sB : |B| ≤ 100) (h : approx_equal_ (2 / |(A : ℝ)|) (2 / |(B : ℝ)|)) : |A| = |B| := by
  have a1 := one_le_abs hA
  have b1 := one_le_abs hB
  have sA' : |(A : ℝ)| ≤ 100 := by exact_mod_cast sA
  have sB' : |(B : ℝ)| ≤ 100 := by exact_mod_cast sB
  have h1 := approx_equal_bound h
  obtain ⟨x, hx⟩ : ∃ x, x = |(A : ℝ)| := ⟨_, rfl⟩
  obtain ⟨y, hy⟩ : ∃ y, y = |(B : ℝ)| := ⟨_, rfl⟩
  rw [← hx] at a1 sA' h1
  rw [← hy] at b1 sB' h1
  have x0 : 0 < x := by linarith
  have y0 : 0 < y := by linarith
  have m1 : max |2 / x| |2 / y| ≤ 2 := by
    rw [abs_of_pos (by positivity), abs_of_pos (by positivity)]
    apply max_le <;> rw [div_le_iff₀ (by positivity)] <;> linarith
  have h2 : |2 / x - 2 / y| ≤ 3 / 10 ^ 9 := by linarith
  have h3 : 2 / x - 2 / y = 2 * (y - x) / (x * y) := by field_simp
  rw [h3, abs_div, abs_of_pos (by positivity : 0 < x * y), div_le_iff₀ (by positivity), abs_mul, abs_two] at h2
  have hxy : x * y ≤ 100 * 100 := by nlinarith
  have h4 : |y - x| < 1 := by nlinarith
  have h5 : ((|B| - |A| : ℤ) : ℝ) = y - x := by rw [hx, hy]; push_cast; rfl
  rw [← h5] at h4
  have := int_eq_zero h4
  linarith

theorem coord_eq {A b b' : ℤ} (hA : A ≠ 0) (sA : |A| ≤ 100) (sb : |b'| ≤ 100) (h : npClose (2 * b / A) (2 * b' / A)) : b = b' := by
  have a1 := one_le_abs hA
  have hA' : (A : ℝ) ≠ 0 := by exact_mod_cast hA
  have sA' : |(A : ℝ)| ≤ 100 := by exact_mod_cast sA
  have sb' : |(b' : ℝ)| ≤ 100 := by exact_mod_cast sb
  unfold npClose at h
  rw [show (2 * b / A : ℝ) - 2 * b' / A = 2 * (b - b') / A by field_simp, abs_div, abs_div, div_le_iff₀ (by positivity), add_mul, mul_assoc,
    div_mul_cancel₀ _ (by positivity), abs_mul, abs_mul, abs_two] at h
  have : |((b - b' : ℤ) : ℝ)| < 1 := by push_cast; linarith
  have := int_eq_zero this
  linarith

theorem eq_of_abs {A B : ℤ} (h : |A| = |B|) : A = B ∨ A = -B := abs_eq_abs.1 h

theorem equal_circles {u v : V} (hu : Good u) (hv : Good v) (su : Small u) (sv : Small v) {c d : Circle} (hc : Rep u (.circle c)) (hd : Rep v (.circle d)) :
    c.is_equal d ↔ u = v ∨ u = ⟨-v.A, -v.b, -v.c, -v.E⟩ := by
  obtain ⟨a1, a2, a3⟩ := hc
  obtain ⟨b1, b2, b3⟩ := hd
  constructor
  · rintro ⟨hr, h1, h2⟩
    rw [a3, b3] at hr
    rw [a2, b2] at h1 h2
    dsimp only at h1 h2
    rcases eq_of_abs (radius_eq a1 b1 su.1 sv.1 hr) with hA | hA
    · left
      rw [← hA] at h1 h2
      have e1 := coord_eq a1 su.1 sv.2.1 h1
      have e2 := coord_eq a1 su.1 sv.2.2.1 h2
      have e3 : u.A * (u.E - v.E) = 0 := by
        have := hu.1; have := hv.1
        rw [← hA, ← e1, ← e2] at this
        linarith
      have e4 := (mul_eq_zero.1 e3).resolve_left a1
      obtain ⟨A, b, c, E⟩ := u
      obtain ⟨A', b', c', E'⟩ := v
      simp only at hA e1 e2 e4
      simp only [V.mk.injEq]
      refine ⟨hA, e1, e2, by linarith⟩
    · right
      have hA2 : v.A = -u.A := by linarith
      have neg : ∀ x : ℤ, (2 * x / v.A : ℝ) = 2 * ((-x : ℤ) : ℝ) / u.A := by
        intro x; rw [hA2]; push_cast; rw [div_neg, mul_neg, neg_div]
      rw [neg] at h1 h2
      have e1 := coord_eq a1 su.1 (by rw [abs_neg]; exact sv.2.1) h1
      have e2 := coord_eq a1 su.1 (by rw [abs_neg]; exact sv.2.2.1) h2
      have e3 : u.A * (u.E + v.E) = 0 := by
        have h3 := hu.1; have h4 := hv.1
        rw [hA2] at h4
        rw [e1, e2] at h3
        linarith
      have e4 := (mul_eq_zero.1 e3).resolve_left a1
      obtain ⟨A, b, c, E⟩ := u
      obtain ⟨A', b', c', E'⟩ := v
      simp only at hA e1 e2 e4
      simp only [V.mk.injEq]
      refine ⟨hA, e1, e2, by linarith⟩
  · intro h
    have : c = d := by
      rcases h with h | h
      · rw [h] at a2 a3
        ext
        · rw [a2, b2]
        · rw [a2, b2]
        · rw [a3, b3]
      · rw [h] at a2 a3
        push_cast at a2 a3
        rw [abs_neg] at a3
        ext
        · rw [a2, b2]; dsimp only; rw [mul_neg, neg_div_neg_eq]
        · rw [a2, b2]; dsimp only; rw [mul_neg, neg_div_neg_eq]
        · rw [a3, b3]
    rw [this]
    exact C75_reflexive.1 d

/-- The offset of a line. -/
theorem offset_sq {b c E : ℝ} (hu : b ^ 2 + c ^ 2 = 1) {l : Line} (hl : l.Valid) (h : ∀ P : Pt, OnLine l.A l.B P ↔ b * P.x + c * P.y = E) :
    l.direction_offset.2 = |E| := by
  obtain ⟨-, -, h3, h4⟩ := C03_direction_offset l hl
  obtain ⟨d, hd⟩ : ∃ d, d = l.direction_offset.1 := ⟨_, rfl⟩
  obtain ⟨o, ho⟩ : ∃ o, o = l.direction_offset.2 := ⟨_, rfl⟩
  rw [← ho] at h3 ⊢
  rw [← hd, ← ho] at h4
  have cs := sin_sq_add_cos_sq d
  have k1 := (h ⟨o * cos d, o * sin d⟩).1 ((h4 _).2 (by dsimp only; linear_combination o * cs))
  have k2 := (h ⟨o * cos d - sin d, o * sin d + cos d⟩).1 ((h4 _).2 (by dsimp only; linear_combination o * cs))
  dsimp only at k1 k2
  have z : -b * sin d + c * cos d = 0 := by linear_combination k2 - k1
  have s : (b * cos d + c * sin d) ^ 2 = 1 := by
    linear_combination cs * (b ^ 2 + c ^ 2) + hu - (-b * sin d + c * cos d) * z
  have e : o * (b * cos d + c * sin d) = E := by linear_combination k1
  rw [← e, abs_mul, abs_of_nonneg h3, (sq_eq_one_iff_of_ne_zero s), mul_one]
where
  sq_eq_one_iff_of_ne_zero {x : ℝ} (h : x ^ 2 = 1) : |x| = 1 := by
    rw [← sq_abs] at h
    nlinarith [abs_nonneg x]

/-- A line and its image by the central symmetry about the origin are reported equal. -/
theorem opposite_equal {l m : Line} (hl : l.Valid) (hm : m.Valid) (h : ∀ P : Pt, OnLine m.A m.B P ↔ OnLine l.A l.B ⟨-P.x, -P.y⟩) : l.is_equal m := by
  obtain ⟨-, -, a3, a4⟩ := C03_direction_offset l hl
  obtain ⟨-, -, b3, b4⟩ := C03_direction_offset m hm
  have h' : ∀ P : Pt, OnLine m.A m.B P ↔ cos (l.direction_offset.1 + π) * P.x + sin (l.direction_offset.1 + π) * P.y = l.direction_offset.2 := by
    intro P
    rw [h, a4, cos_add_pi, sin_add_pi]
    dsimp only
    constructor <;> intro h <;> linarith
  obtain ⟨ho, hd⟩ := normal_form_unique a3 b3 h' b4 fun P => Iff.rfl
  have hd2 : pyMod (l.direction_offset.1 + π) π = pyMod l.direction_offset.1 π := by
    have := pyMod_add_int_mul l.direction_offset.1 pi_ne_zero 1
    rwa [Int.cast_one, one_mul] at this
  unfold Line.is_equal
  dsimp only
  rw [ho, ← hd, hd2, if_pos (approx_equal_refl _)]
  exact approx_equal_refl _

theorem unit_cases {b c b' c' : ℤ} (h : b ^ 2 + c ^ 2 = 1) (h' : b' ^ 2 + c' ^ 2 = 1) (hb : b * b = b' * b') : (b' = b ∧ c' = c) ∨ (b' = -b ∧ c' = -c) := by
  have hc : c * c = c' * c' := by nlinarith
  have hz : b = 0 ∨ c = 0 := by
    by_contra hh
    push Not at hh
    have h1 : 1 ≤ b ^ 2 := by have := Int.one_le_abs hh.1; rw [← sq_abs]; nlinarith
    have h2 : 1 ≤ c ^ 2 := by have := Int.one_le_abs hh.2; rw [← sq_abs]; nlinarith
    linarith
  rcases mul_self_eq_mul_self_iff.1 hb with h1 | h1 <;> rcases mul_self_eq_mul_self_iff.1 hc with h2 | h2 <;> rcases hz with h3 | h3 <;> omega

theorem equal_lines {u v : V} (hu : Good u) (hv : Good v) (su : Small u) (sv : Small v) {l m : Line} (hl : Rep u (.line l)) (hm : Rep v (.line m)) :
    l.is_equal m ↔ u.b * u.b = v.b * v.b ∧ u.E * u.E = v.E * v.E := by
  obtain ⟨a1, a2, a3⟩ := hl
  obtain ⟨b1, b2, b3⟩ := hm
  have hu1 : u.b ^ 2 + u.c ^ 2 = 1 := by have := hu.1; rw [a1] at this; linarith
  have hv1 : v.b ^ 2 + v.c ^ 2 = 1 := by have := hv.1; rw [b1] at this; linarith
  have hu' : (u.b : ℝ) ^ 2 + (u.c : ℝ) ^ 2 = 1 := by exact_mod_cast hu1
  have hv' : (v.b : ℝ) ^ 2 + (v.c : ℝ) ^ 2 = 1 := by exact_mod_cast hv1
  constructor
  · intro he
    constructor
    · have hc := is_equal_cross l m a2 b2 he
      have p1 := (a3 l.A).1 ⟨0, by ext <;> simp⟩
      have p2 := (a3 l.B).1 ⟨1, by ext <;> simp⟩
      have q1 := (b3 m.A).1 ⟨0, by ext <;> simp⟩
      have q2 := (b3 m.B).1 ⟨1, by ext <;> simp⟩
      have d1 := dist_pos_of_ne (ne_of_not_allclose a2)
      have d2 := dist_pos_of_ne (ne_of_not_allclose b2)
      have s1 := dist_sq l.A l.B
      have s2 := dist_sq m.A m.B
      have h1 : (u.b : ℝ) * (l.B.x - l.A.x) + u.c * (l.B.y - l.A.y) = 0 := by linarith
      have h2 : (v.b : ℝ) * (m.B.x - m.A.x) + v.c * (m.B.y - m.A.y) = 0 := by linarith
      obtain ⟨D, hD⟩ : ∃ D, D = Spec.dist l.A l.B := ⟨_, rfl⟩
      obtain ⟨F, hF⟩ : ∃ F, F = Spec.dist m.A m.B := ⟨_, rfl⟩
      rw [← hD] at d1 s1 hc
      rw [← hF] at d2 s2 hc
      unfold cross at hc
      unfold sqDist at s1 s2
      simp only [Pt.sub_x, Pt.sub_y] at hc
      obtain ⟨x, hx⟩ : ∃ x, x = l.B.x - l.A.x := ⟨_, rfl⟩
      obtain ⟨y, hy⟩ : ∃ y, y = l.B.y - l.A.y := ⟨_, rfl⟩
      obtain ⟨z, hz⟩ : ∃ z, z = m.B.x - m.A.x := ⟨_, rfl⟩
      obtain ⟨s, hs⟩ : ∃ s, s = m.B.y - m.A.y := ⟨_, rfl⟩
      have s1' : D ^ 2 = x ^ 2 + y ^ 2 := by rw [s1, hx, hy]; ring
      have s2' : F ^ 2 = z ^ 2 + s ^ 2 := by rw [s2, hz, hs]; ring
      rw [← hx, ← hy] at h1 hc
      rw [← hz, ← hs] at h2 hc
      obtain ⟨α, hα⟩ : ∃ α, α = -u.c * x + u.b * y := ⟨_, rfl⟩
      obtain ⟨β, hβ⟩ : ∃ β, β = -v.c * z + v.b * s := ⟨_, rfl⟩
      have ex : x = -u.c * α := by rw [hα]; linear_combination -x * hu' + (u.b : ℝ) * h1
      have ey : y = u.b * α := by rw [hα]; linear_combination -y * hu' + (u.c : ℝ) * h1
      have ez : z = -v.c * β := by rw [hβ]; linear_combination -z * hv' + (v.b : ℝ) * h2
      have es : s = v.b * β := by rw [hβ]; linear_combination -s * hv' + (v.c : ℝ) * h2
      have hDα : D = |α| := by
        have : D ^ 2 = α ^ 2 := by rw [s1', ex, ey]; linear_combination α ^ 2 * hu'
        rw [← abs_of_pos d1]; exact sq_eq_sq_iff_abs_eq_abs _ _ |>.1 this
      have hFβ : F = |β| := by
        have : F ^ 2 = β ^ 2 := by rw [s2', ez, es]; linear_combination β ^ 2 * hv'
        rw [← abs_of_pos d2]; exact sq_eq_sq_iff_abs_eq_abs _ _ |>.1 this
      have ec : x * s - y * z = (u.b * v.c - u.c * v.b) * (α * β) := by rw [ex, ey, ez, es]; ring
      rw [ec, abs_mul, abs_mul, ← hDα, ← hFβ] at hc
      have hlt : |(u.b : ℝ) * v.c - u.c * v.b| < 1 := by
        by_contra hh
        push Not at hh
        have hp : 0 < D * F := mul_pos d1 d2
        have := mul_le_mul_of_nonneg_right hh hp.le
        linarith
      have hz0 : u.b * v.c - u.c * v.b = 0 := int_eq_zero (by push_cast; exact hlt)
      have e1 : u.b * v.c = u.c * v.b := by linarith
      have : u.b ^ 2 = v.b ^ 2 := by
        linear_combination (-u.b ^ 2) * hv1 + (u.b * v.c + u.c * v.b) * e1 + v.b ^ 2 * hu1
      rw [← pow_two, ← pow_two]; exact this
    · obtain ⟨k, -, ho⟩ := is_equal_mod_pi l m a2 b2 he
      rw [offset_sq hu' a2 a3, offset_sq hv' b2 b3] at ho
      have sE : |(u.E : ℝ)| ≤ 100 := by exact_mod_cast su.2.2.2
      have h1 : |((|u.E| - |v.E| : ℤ) : ℝ)| < 1 := by push_cast; linarith
      have h2 := int_eq_zero h1
      have h3 : |u.E| = |v.E| := by linarith
      have := sq_eq_sq_iff_abs_eq_abs u.E v.E |>.2 h3
      rw [← pow_two, ← pow_two]; exact this
  · rintro ⟨h1, h2⟩
    rcases unit_cases hu1 hv1 h1 with ⟨e1, e2⟩ | ⟨e1, e2⟩ <;> rcases mul_self_eq_mul_self_iff.1 h2 with e3 | e3
    · exact C04_is_equal_complete l m a2 b2 fun P => by rw [a3, b3, e1, e2, e3]
    · refine opposite_equal a2 b2 fun P => ?_
      rw [a3, b3, e1, e2, e3]; push_cast
      constructor <;> intro h <;> linarith
    · refine opposite_equal a2 b2 fun P => ?_
      rw [a3, b3, e1, e2, e3]; push_cast
      constructor <;> intro h <;> linarith
    · refine C04_is_equal_complete l m a2 b2 fun P => ?_
      rw [a3, b3, e1, e2, e3]; push_cast
      constructor <;> intro h <;> linarith

theorem same_eq {u v : V} (hu : Good u) (hv : Good v) (su : Small u) (sv : Small v) {g h : GCircle} {n m : ℕ} (hg : Rep u g) (hh : Rep v h) :
    same (g, n) (h, m) = fv u v := by
  rw [Bool.eq_iff_iff]
  unfold fv same
  cases g with
  | circle c =>
    have ha := hg.1
    rw [if_neg ha]
    cases h with
    | circle d =>
      simp only [decide_eq_true_eq, Bool.or_eq_true]
      exact equal_circles hu hv su sv hg hh
    | line m =>
      have hb := hh.1
      simp only [Bool.false_eq_true, decide_eq_true_eq, Bool.or_eq_true, false_iff, not_or]
      constructor
      · rintro rfl; exact ha hb
      · intro e; rw [e] at ha; apply ha; simp [hb]
  | line l =>
    have ha := hg.1
    rw [if_pos ha]
    cases h with
    | circle d =>
      have hb := hh.1
      simp [hb]
    | line m =>
      have hb := hh.1
      simp only [hb, decide_eq_true_eq, Bool.and_eq_true, true_and, decide_true]
      exact equal_lines hu hv su sv hg hh

/-- `Spec.firsts` with a bound on the number of steps. -/
def firstsN {α : Type*} (f : α → α → Bool) : ℕ → List α → List α
  | 0, _ => []
  | _ + 1, [] => []
  | n + 1, x :: xs => x :: firstsN f n (xs.filter fun y => !f x y)

theorem firsts_eq {α : Type*} (f : α → α → Bool) (n : ℕ) (L : List α) (h : L.length ≤ n) : Spec.firsts f L = firstsN f n L := by
  induction n generalizing L with
  | zero => have := List.length_eq_zero_iff.1 (Nat.le_zero.1 h); subst this; simp [Spec.firsts, firstsN]
  | succ n ih =>
    cases L with
    | nil => simp [Spec.firsts, firstsN]
    | cons x xs =>
      rw [Spec.firsts, firstsN, ih]
      have := List.length_filter_le (fun y => !f x y) xs
      simp only [List.length_cons] at h
      omega

theorem filter_forall₂ {α β : Type*} {R : α → β → Prop} {p : α → Bool} {q : β → Bool} {as : List α} {bs : List β} (h : List.Forall₂ R as bs)
    (hpq : ∀ a b, R a b → p a = q b) : List.Forall₂ R (as.filter p) (bs.filter q) := by
  induction h with
  | nil => exact .nil
  | @cons a b as bs hab _ ih =>
    have := hpq a b hab
    rw [List.filter_cons, List.filter_cons, this]
    split_ifs
    · exact .cons hab ih
    · exact ih

theorem firstsN_forall₂ {α β : Type*} {R : α → β → Prop} {f : α → α → Bool} {k : β → β → Bool} (hf : ∀ a b a' b', R a b → R a' b' → f a a' = k b b') (n : ℕ) {as : List α}
    {bs : List β} (h : List.Forall₂ R as bs) : List.Forall₂ R (firstsN f n as) (firstsN k n bs) := by
  induction n generalizing as bs with
  | zero => exact .nil
  | succ n ih =>
    cases h with
    | nil => exact .nil
    | cons hab h =>
      refine .cons hab (ih (filter_forall₂ h ?_))
      intro a' b' hab'
      rw [hf _ _ _ _ hab hab']

end Inversions
