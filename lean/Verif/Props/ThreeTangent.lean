import Verif.Spec.ThreeTangent
import Verif.Model.ThreeTangent
import Verif.Props.Inversion
import Verif.Props.Circle2
import Verif.Props.Triangle
import Verif.Props.Line
import Verif.Props.TriangularGasketRun

/-!
# C103: examples/Circles_simultaneously_tangent.py
-/

open Spec Real Classical ThreeTangent

namespace ThreeTangent

/-- A circle through a point and a different point which is its inverse: the power of the pole is the power of the inversion. -/
theorem power_of_two {O P T T' : Pt} {R k : ℝ} (hT : OnCircle O R T) (hT' : OnCircle O R T') (hi : IsInverse P k T T') (hne : T' ≠ T) :
    specPower O R P = k := by
  obtain ⟨h0, e⟩ := isInverse_iff.1 hi
  have hw := dot_self_pos h0
  obtain ⟨w, hwe⟩ : ∃ w, w = T - P := ⟨_, rfl⟩
  obtain ⟨m, hm⟩ : ∃ m, m = k / dot w w := ⟨_, rfl⟩
  rw [← hwe] at hw e
  rw [← hm] at e
  have hT0 : T = P + w := by rw [hwe]; ext <;> simp
  have hk : k = m * dot w w := by rw [hm]; field_simp
  have hm1 : m ≠ 1 := by
    rintro rfl
    apply hne; rw [e, hT0]; ext <;> simp
  rw [hk]
  rw [hT0] at hT
  rw [e] at hT'
  unfold specPower
  unfold OnCircle sqDist at *
  simp only [dot, Pt.add_x, Pt.add_y, Pt.smul_x, Pt.smul_y] at *
  apply mul_left_cancel₀ (sub_ne_zero.2 hm1)
  linear_combination m * hT - hT'

/-- Conversely such a circle contains the inverse of each of its points. -/
theorem inverse_mem {O P T T' : Pt} {R k : ℝ} (hT : OnCircle O R T) (hp : specPower O R P = k) (hi : IsInverse P k T T') : OnCircle O R T' := by
  obtain ⟨h0, e⟩ := isInverse_iff.1 hi
  have hw := dot_self_pos h0
  obtain ⟨w, hwe⟩ : ∃ w, w = T - P := ⟨_, rfl⟩
  obtain ⟨m, hm⟩ : ∃ m, m = k / dot w w := ⟨_, rfl⟩
  rw [← hwe] at hw e
  rw [← hm] at e
  have hT0 : T = P + w := by rw [hwe]; ext <;> simp
  have hk : k = m * dot w w := by rw [hm]; field_simp
  rw [hk] at hp
  rw [hT0] at hT
  rw [e]
  unfold specPower at hp
  unfold OnCircle sqDist at *
  simp only [dot, Pt.add_x, Pt.add_y, Pt.smul_x, Pt.smul_y] at *
  linear_combination (1 - m) * hp + m * hT

/-- A point of the line of the poles has the same power for two circles which agree at the poles. -/
theorem power_line {P Q H O O' : Pt} {R R' : ℝ} (hP : specPower O R P = specPower O' R' P) (hQ : specPower O R Q = specPower O' R' Q)
    (hH : OnLine P Q H) : specPower O R H = specPower O' R' H := by
  obtain ⟨t, rfl⟩ := hH
  unfold specPower sqDist at *
  simp only [Pt.add_x, Pt.add_y, Pt.smul_x, Pt.smul_y, Pt.sub_x, Pt.sub_y] at *
  linear_combination (1 - t) * hP + t * hQ

/-- The contact of a circle with `C₃` gives its contact with the image of `C₃`, with the sign of the ratio. -/
theorem contact_image {O P O₁ O₃ : Pt} {R k s r₃ e : ℝ} (he : e ^ 2 = 1) (hp : specPower O R P = k) (hs : s * (sqDist O₃ P - r₃ ^ 2) = k)
    (hO : O₁ = P + s • (O₃ - P)) (h : sqDist O O₃ = (r₃ + e * R) ^ 2) : sqDist O O₁ = (s * r₃ + e * R) ^ 2 := by
  subst hO
  unfold specPower at hp
  unfold sqDist at *
  simp only [Pt.add_x, Pt.add_y, Pt.smul_x, Pt.smul_y, Pt.sub_x, Pt.sub_y] at *
  linear_combination (1 - s) * hp + s * h - (1 - s) * hs + (R ^ 2 * s - R ^ 2) * he

/-- The converse, for a ratio different from 1. -/
theorem contact_power {O P O₁ O₃ : Pt} {R k s r₃ e : ℝ} (he : e ^ 2 = 1) (hs1 : s ≠ 1) (hs : s * (sqDist O₃ P - r₃ ^ 2) = k)
    (hO : O₁ = P + s • (O₃ - P)) (h : sqDist O O₃ = (r₃ + e * R) ^ 2) (h1 : sqDist O O₁ = (s * r₃ + e * R) ^ 2) : specPower O R P = k := by
  subst hO
  unfold specPower
  unfold sqDist at *
  simp only [Pt.add_x, Pt.add_y, Pt.smul_x, Pt.smul_y, Pt.sub_x, Pt.sub_y] at *
  apply mul_left_cancel₀ (sub_ne_zero.2 hs1.symm)
  linear_combination h1 - s * h + (1 - s) * hs - (R ^ 2 * s - R ^ 2) * he

/-- The tangents from a point of the radical axis. -/
theorem contact_of_tangent {O O₃ H T : Pt} {R r₃ : ℝ} (hR : 0 < R) (h3 : 0 < r₃) (hT : OnCircle O R T) (hT3 : OnCircle O₃ r₃ T)
    (hH : specPower O R H = specPower O₃ r₃ H) (hp : Perp (T - H) (T - O₃)) (hne : T ≠ H) :
    ∃ e : ℝ, e ^ 2 = 1 ∧ sqDist O O₃ = (r₃ + e * R) ^ 2 := by
  have hw := dot_self_pos hne
  unfold specPower at hH
  unfold OnCircle sqDist at *
  unfold Perp at hp
  simp only [dot, Pt.sub_x, Pt.sub_y] at *
  obtain ⟨u1, hu1⟩ : ∃ u1, u1 = T.x - H.x := ⟨_, rfl⟩
  obtain ⟨u2, hu2⟩ : ∃ u2, u2 = T.y - H.y := ⟨_, rfl⟩
  obtain ⟨v1, hv1⟩ : ∃ v1, v1 = T.x - O₃.x := ⟨_, rfl⟩
  obtain ⟨v2, hv2⟩ : ∃ v2, v2 = T.y - O₃.y := ⟨_, rfl⟩
  obtain ⟨w1, hw1⟩ : ∃ w1, w1 = T.x - O.x := ⟨_, rfl⟩
  obtain ⟨w2, hw2⟩ : ∃ w2, w2 = T.y - O.y := ⟨_, rfl⟩
  have hq : u1 * w1 + u2 * w2 = 0 := by rw [hu1, hu2, hw1, hw2]; linear_combination (1/2) * (hT - hT3 - hH) + hp
  have hp' : u1 * v1 + u2 * v2 = 0 := by rw [hu1, hu2, hv1, hv2]; linear_combination hp
  have hV : v1 ^ 2 + v2 ^ 2 = r₃ ^ 2 := by rw [hv1, hv2]; exact hT3
  have hW : w1 ^ 2 + w2 ^ 2 = R ^ 2 := by rw [hw1, hw2]; exact hT
  have hU : 0 < u1 * u1 + u2 * u2 := by rw [hu1, hu2]; exact hw
  have hc : v1 * w2 - v2 * w1 = 0 := by
    have a1 : u1 * (v1 * w2 - v2 * w1) = 0 := by linear_combination w2 * hp' - v2 * hq
    have a2 : u2 * (v1 * w2 - v2 * w1) = 0 := by linear_combination v1 * hq - w1 * hp'
    have : (u1 * u1 + u2 * u2) * (v1 * w2 - v2 * w1) = 0 := by linear_combination u1 * a1 + u2 * a2
    exact (mul_eq_zero.1 this).resolve_left hU.ne'
  have hd : (v1 * w1 + v2 * w2) ^ 2 = (r₃ * R) ^ 2 := by
    linear_combination (w1 ^ 2 + w2 ^ 2) * hV + r₃ ^ 2 * hW - (v1 * w2 - v2 * w1) * hc
  have e1 : (O.x - O₃.x) ^ 2 + (O.y - O₃.y) ^ 2 = r₃ ^ 2 + R ^ 2 - 2 * (v1 * w1 + v2 * w2) := by
    rw [← hV, ← hW, hv1, hv2, hw1, hw2]; ring
  rcases sq_eq_sq_iff_eq_or_eq_neg.1 hd with h | h
  · exact ⟨-1, by norm_num, by rw [e1, h]; ring⟩
  · exact ⟨1, by norm_num, by rw [e1, h]; ring⟩

/-- Conversely, a point with the same power for two touching circles is on the common tangent. -/
theorem tangent_of_contact {O O₃ H : Pt} {R r₃ e : ℝ} (hR : 0 < R) (h3 : 0 < r₃) (he : e = 1 ∨ e = -1) (hne : O ≠ O₃)
    (h : sqDist O O₃ = (r₃ + e * R) ^ 2) (hH : specPower O R H = specPower O₃ r₃ H) :
    ∃ T, OnCircle O R T ∧ OnCircle O₃ r₃ T ∧ Perp (T - H) (T - O₃) := by
  have hd := sqDist_pos hne
  have he2 : e ^ 2 = 1 := by rcases he with rfl | rfl <;> norm_num
  have hm : r₃ + e * R ≠ 0 := by
    intro h0; rw [h, h0] at hd; norm_num at hd
  obtain ⟨m, hme⟩ : ∃ m, m = r₃ / (r₃ + e * R) := ⟨_, rfl⟩
  have hm1 : m * (r₃ + e * R) = r₃ := by rw [hme]; field_simp
  refine ⟨O₃ + m • (O - O₃), ?_, ?_, ?_⟩
  · unfold OnCircle sqDist at *
    simp only [Pt.add_x, Pt.add_y, Pt.smul_x, Pt.smul_y, Pt.sub_x, Pt.sub_y]
    linear_combination (m - 1) ^ 2 * h + (m * (r₃ + e * R) - (r₃ + e * R) - e * R) * hm1 + R ^ 2 * he2
  · unfold OnCircle sqDist at *
    simp only [Pt.add_x, Pt.add_y, Pt.smul_x, Pt.smul_y, Pt.sub_x, Pt.sub_y]
    linear_combination m ^ 2 * h + (m * (r₃ + e * R) + r₃) * hm1
  · unfold Perp specPower at *
    unfold sqDist at *
    simp only [dot, Pt.add_x, Pt.add_y, Pt.smul_x, Pt.smul_y, Pt.sub_x, Pt.sub_y] at *
    linear_combination m / 2 * hH + (m ^ 2 - m / 2) * h + m * (r₃ + e * R) * hm1 - m * R ^ 2 / 2 * he2

theorem meetOnce_of {O O₁ : Pt} {R r e : ℝ} (hR : 0 < R) (h1 : 0 < r) (he : e = 1 ∨ e = -1) (hne : O ≠ O₁) (h : sqDist O O₁ = (r + e * R) ^ 2) :
    MeetOnce O R O₁ r := by
  have hd := sqDist_pos hne
  have he2 : e ^ 2 = 1 := by rcases he with rfl | rfl <;> norm_num
  have hm : r + e * R ≠ 0 := by
    intro h0; rw [h, h0] at hd; norm_num at hd
  obtain ⟨m, hme⟩ : ∃ m, m = r / (r + e * R) := ⟨_, rfl⟩
  have hm1 : m * (r + e * R) = r := by rw [hme]; field_simp
  refine ⟨O₁ + m • (O - O₁), ⟨?_, ?_⟩, ?_⟩
  · unfold OnCircle sqDist at *
    simp only [Pt.add_x, Pt.add_y, Pt.smul_x, Pt.smul_y, Pt.sub_x, Pt.sub_y]
    linear_combination (m - 1) ^ 2 * h + (m * (r + e * R) - (r + e * R) - e * R) * hm1 + R ^ 2 * he2
  · unfold OnCircle sqDist at *
    simp only [Pt.add_x, Pt.add_y, Pt.smul_x, Pt.smul_y, Pt.sub_x, Pt.sub_y]
    linear_combination m ^ 2 * h + (m * (r + e * R) + r) * hm1
  · rintro Y ⟨y1, y2⟩
    -- the distance of `Y` to the contact point is zero
    have : sqDist Y (O₁ + m • (O - O₁)) = 0 := by
      unfold OnCircle sqDist at *
      simp only [Pt.add_x, Pt.add_y, Pt.smul_x, Pt.smul_y, Pt.sub_x, Pt.sub_y]
      linear_combination m * y1 + (1 - m) * y2 + (m ^ 2 - m) * h + (m * (r + e * R) - r) * hm1 - m * R ^ 2 * he2
    exact sqDist_eq_zero.1 this

theorem circumcircle_some {T : Triangle} {C : Circle} (h : T.circumcircle = .ok (some C)) : ¬ Collinear T.A T.B T.C := by
  intro hc
  by_cases h1 : T.A = T.B
  · have : T.flatness = .error .zeroDivision := by
      unfold Triangle.flatness pyDiv; dsimp only; rw [if_pos (by rw [h1]; simp)]
    unfold Triangle.circumcircle at h
    rw [this] at h
    cases h
  by_cases h2 : T.A = T.C
  · have : T.flatness = .error .zeroDivision := by
      unfold Triangle.flatness pyDiv; dsimp only; rw [if_pos (by rw [h2]; simp)]
    unfold Triangle.circumcircle at h
    rw [this] at h
    cases h
  rw [C40_circumcircle_flat T hc h1 h2] at h
  cases h

/-- What `through` gives. -/
structure Thru (i1 i2 : Inversion) (M : Pt) (C : Circle) : Prop where
  pos : 0 < C.radius
  mem : OnCircle C.center C.radius M
  pow1 : specPower C.center C.radius i1.pole = i1.power
  pow2 : specPower C.center C.radius i2.pole = i2.power
  ne1 : ¬ IsInverse i1.pole i1.power M M
  ne2 : ¬ IsInverse i2.pole i2.power M M
  uniq : ∀ O R, 0 < R → OnCircle O R M → specPower O R i1.pole = i1.power → specPower O R i2.pole = i2.power → O = C.center ∧ R = C.radius

theorem through_spec {i1 i2 : Inversion} {M : Pt} {C : Circle} (h : through i1 i2 M = .ok C) : Thru i1 i2 M C := by
  unfold through at h
  rcases e1 : i1.invert (.fin M) with M1 | _
  swap
  · rcases e2 : i2.invert (.fin M) with M2 | _ <;> · rw [e1, e2] at h; cases h
  rcases e2 : i2.invert (.fin M) with M2 | _
  swap
  · rw [e1, e2] at h; cases h
  rw [e1, e2] at h
  obtain ⟨T, hT, h⟩ := Res.bind_ok.1 h
  obtain ⟨r, hr, h⟩ := Res.bind_ok.1 h
  obtain rfl : (⟨M, M1, M2⟩ : Triangle) = T := Except.ok.inj hT
  rcases r with _ | C'
  · cases h
  obtain rfl : C' = C := Except.ok.inj h
  have hnc := circumcircle_some hr
  obtain ⟨c, hc, hpos, m0, m1, m2, hu⟩ := C40_circumcircle _ hnc
  rw [hr] at hc
  obtain rfl : C' = c := Option.some.inj (Except.ok.inj hc)
  obtain ⟨n1, n2, -⟩ := ne_of_not_collinear hnc
  have v1 := (invert_fin e1).2
  have v2 := (invert_fin e2).2
  exact { pos := hpos
          mem := m0
          pow1 := power_of_two m0 m1 v1 (Ne.symm n1)
          pow2 := power_of_two m0 m2 v2 (Ne.symm n2)
          ne1 := fun h => n1 (isInverse_unique h v1)
          ne2 := fun h => n2 (isInverse_unique h v2)
          uniq := fun O R hR hM q1 q2 => hu O R hR hM (inverse_mem hM q1 v1) (inverse_mem hM q2 v2) }

theorem through_ok {i1 i2 : Inversion} {M M1 M2 : Pt} (e1 : i1.invert (.fin M) = .fin M1) (e2 : i2.invert (.fin M) = .fin M2)
    (hnc : ¬ Collinear M M1 M2) : ∃ C, through i1 i2 M = .ok C := by
  obtain ⟨c, hc, -⟩ := C40_circumcircle ⟨M, M1, M2⟩ hnc
  refine ⟨c, ?_⟩
  unfold through
  rw [e1, e2]
  show (Triangle.circumcircle ⟨M, M1, M2⟩ >>= _) = _
  rw [hc]; rfl

/-- What a run of the script computes. -/
structure Run (C1 C2 C3 S0 S1 : Circle) (i1 i2 : Inversion) (H T0 T1 : Pt) : Prop where
  inv1 : Inversion.from_swapping_two_circles C1 C3 true = some i1
  inv2 : Inversion.from_swapping_two_circles C2 C3 true = some i2
  base : ∀ O R, specPower O R i1.pole = i1.power → specPower O R i2.pole = i2.power → specPower O R H = specPower C3.center C3.radius H
  points : ∀ X, (OnCircle C3.center C3.radius X ∧ Perp (X - H) (X - C3.center)) ↔ X = T0 ∨ X = T1
  ne : T0 ≠ T1
  sol0 : Thru i1 i2 T0 S0
  sol1 : Thru i1 i2 T1 S1

theorem run_of {C1 C2 C3 S0 S1 : Circle} {alpha : ℝ} (h3 : C3.Valid) (h : script C1 C2 C3 alpha = .ok (S0, S1)) :
    ∃ i1 i2 H T0 T1, Run C1 C2 C3 S0 S1 i1 i2 H T0 T1 := by
  unfold script at h
  rcases e1 : Inversion.from_swapping_two_circles C1 C3 true with _ | i1
  · rw [e1] at h; cases h
  rcases e2 : Inversion.from_swapping_two_circles C2 C3 true with _ | i2
  · rw [e1, e2] at h; cases h
  rw [e1, e2] at h
  obtain ⟨C, hC, h⟩ := Res.bind_ok.1 h
  obtain ⟨cl, hcl, h⟩ := Res.bind_ok.1 h
  obtain ⟨L, hL, h⟩ := Res.bind_ok.1 h
  rcases L with _ | L
  · cases h
  obtain ⟨Cp, hCp, h⟩ := Res.bind_ok.1 h
  obtain ⟨cc, hcc, h⟩ := Res.bind_ok.1 h
  obtain ⟨⟨T0, T1⟩, hT, h⟩ := Res.bind_ok.1 h
  obtain ⟨R0, hR0, h⟩ := Res.bind_ok.1 h
  obtain ⟨R1, hR1, h⟩ := Res.bind_ok.1 h
  obtain ⟨rfl, rfl⟩ := Prod.mk.inj (Except.ok.inj h)
  have tC := through_spec hC
  have hLv := radical_axis_valid hL
  obtain ⟨hclv, rfl⟩ := mkLine_ok.1 hcl
  rcases eH : Line.intersection_line_line L ⟨i1.pole, i2.pole, true, true⟩ with _ | H
  · rw [eH] at hCp; cases hCp
  rw [eH] at hCp
  have hCp' : circleAB H C3.center = .ok Cp := hCp
  obtain ⟨⟨oL, ocl⟩, -⟩ := C12_intersection_sound L ⟨i1.pole, i2.pole, true, true⟩ hLv.1 hclv _ _ eH
  have hHL := (C15_radical_axis _ _ _ hL H).1 oL
  have hall : ¬ allclose H C3.center := by
    intro hc
    obtain ⟨m, hm⟩ := (C19_circleAB H C3.center).1 hc
    rw [hm] at hCp'; cases hCp'
  obtain ⟨Cp', eCp, vCp, hCpm⟩ := (C19_circleAB H C3.center).2 hall
  rw [hCp'] at eCp
  obtain rfl : Cp = Cp' := Except.ok.inj eCp
  obtain ⟨P, Q, rfl⟩ : ∃ P Q, cc = .two P Q := by
    rcases cc with c | _ | P | ⟨P, Q⟩
    · cases hT
    · cases hT
    · cases hT
    · exact ⟨_, _, rfl⟩
  obtain ⟨rfl, rfl⟩ := Prod.mk.inj (Except.ok.inj hT)
  obtain ⟨hne, hpts⟩ := C22_two _ _ h3 vCp _ _ hcc
  exact ⟨i1, i2, H, P, Q,
    { inv1 := e1
      inv2 := e2
      base := fun O R q1 q2 => (power_line (q1.trans tC.pow1.symm) (q2.trans tC.pow2.symm) ocl).trans hHL
      points := fun X => by rw [← hpts X, hCpm X]
      ne := hne
      sol0 := through_spec hR0
      sol1 := through_spec hR1 }⟩

/-- The inversion as a ratio. -/
theorem swap_ratio {C1 C3 : Circle} (h1 : C1.Valid) (h3 : C3.Valid) {i : Inversion} (h : Inversion.from_swapping_two_circles C1 C3 true = some i) :
    i.power ≠ 0 ∧ ∃ s, (s = C1.radius / C3.radius ∨ s = -(C1.radius / C3.radius)) ∧ s * (sqDist C3.center i.pole - C3.radius ^ 2) = i.power ∧
      C1.center = i.pole + s • (C3.center - i.pole) := by
  have hnt : ¬ (C1.radius = C3.radius ∧ Spec.dist C1.center C3.center = C1.radius + C3.radius) := by
    rintro ⟨ha, hb⟩
    unfold Inversion.from_swapping_two_circles at h
    dsimp only at h
    rw [distance_eq, if_pos ha, hb, if_neg (lt_irrefl _), if_neg (lt_irrefl _)] at h
    cases h
  obtain ⟨i', e, hs, -⟩ := C29_swaps C1 C3 h1 h3 true hnt
  rw [h] at e
  obtain rfl : i = i' := Option.some.inj e
  exact ⟨hs.1, inv_circle_classify hs.1 h3 h1 hs.2.2⟩

theorem swap_self {C3 : Circle} (h3 : C3.Valid) {i : Inversion} (h : Inversion.from_swapping_two_circles C3 C3 true = some i) :
    i.pole = C3.center ∧ i.power = C3.radius ^ 2 := by
  have hp : 0 < C3.radius := h3
  unfold Inversion.from_swapping_two_circles at h
  dsimp only at h
  have hm : (C3.center + C3.center) / (2 : ℝ) = C3.center := by ext <;> simp
  have h0 : distance_ C3.center C3.center = 0 := by rw [distance_eq]; simp [Spec.dist, sqDist]
  rw [if_pos rfl, h0, if_pos (by linarith), hm] at h
  obtain rfl := Option.some.inj h
  refine ⟨rfl, ?_⟩
  have : dot1_ (C3.center - C3.center) = 0 := by simp [dot1_, dot_]
  show |dot1_ (C3.center - C3.center) - C3.radius * C3.radius| = _
  rw [this, zero_sub, abs_neg, abs_of_pos (by positivity)]; ring

/-- A circle which the inversion leaves in place is not one of the exchanged circles. -/
theorem ratio_ne_one {C1 C3 : Circle} (h1 : C1.Valid) (h3 : C3.Valid) {i : Inversion} (h : Inversion.from_swapping_two_circles C1 C3 true = some i)
    {s : ℝ} (hs : s = C1.radius / C3.radius ∨ s = -(C1.radius / C3.radius)) (hk : s * (sqDist C3.center i.pole - C3.radius ^ 2) = i.power)
    (hO : C1.center = i.pole + s • (C3.center - i.pole)) {M : Pt} (hM : OnCircle C3.center C3.radius M) (hne : ¬ IsInverse i.pole i.power M M) : s ≠ 1 := by
  rintro rfl
  have p1 : 0 < C1.radius := h1
  have p3 : 0 < C3.radius := h3
  have hr : C1.radius = C3.radius := by
    rcases hs with hs | hs
    · rw [eq_div_iff p3.ne'] at hs; linarith
    · have := div_pos p1 p3; linarith
  have hc : C1 = C3 := by
    ext1
    · rw [hO]; ext <;> simp
    · exact hr
  subst hc
  obtain ⟨e1, e2⟩ := swap_self h3 h
  apply hne
  rw [e1, e2]
  refine ⟨?_, ?_, ?_⟩
  · rintro rfl
    unfold OnCircle sqDist at hM
    simp at hM
    have := pow_pos p3 2
    linarith
  · simp [cross]; ring
  · unfold OnCircle sqDist at hM; simp only [dot, Pt.sub_x, Pt.sub_y]; linear_combination hM

theorem sol_touch {C1 C2 C3 S0 S1 : Circle} {i1 i2 : Inversion} {H T0 T1 T : Pt} {S : Circle} (h3 : C3.Valid)
    (r : Run C1 C2 C3 S0 S1 i1 i2 H T0 T1) (hT : T = T0 ∨ T = T1) (t : Thru i1 i2 T S) :
    ∃ e : ℝ, (e = 1 ∨ e = -1) ∧ sqDist S.center C3.center = (C3.radius + e * S.radius) ^ 2 := by
  have p3 : 0 < C3.radius := h3
  obtain ⟨hc, hp⟩ := (r.points T).2 hT
  have hne : T ≠ H := by
    intro he
    -- then all the points of the two circles are equal
    apply r.ne
    obtain ⟨a1, a2⟩ := (r.points T0).2 (Or.inl rfl)
    obtain ⟨b1, b2⟩ := (r.points T1).2 (Or.inr rfl)
    have key : ∀ X, OnCircle C3.center C3.radius X → Perp (X - H) (X - C3.center) → X = H := by
      intro X x1 x2
      rw [← he] at x2 ⊢
      apply sqDist_eq_zero.1
      unfold OnCircle sqDist at *
      unfold Perp at x2
      simp only [dot, Pt.sub_x, Pt.sub_y] at x2
      linear_combination 2 * x2 + hc - x1
    rw [key T0 a1 a2, key T1 b1 b2]
  obtain ⟨e, he, h⟩ := contact_of_tangent t.pos p3 t.mem hc (r.base _ _ t.pow1 t.pow2) hp hne
  exact ⟨e, by rw [← one_pow 2] at he; exact sq_eq_sq_iff_eq_or_eq_neg.1 he, h⟩

/-- The contact with the exchanged circle. -/
theorem sol_touch_image {C1 C3 S : Circle} {i : Inversion} (h1 : C1.Valid) (h3 : C3.Valid) (hi : Inversion.from_swapping_two_circles C1 C3 true = some i)
    (hS : 0 < S.radius) (hp : specPower S.center S.radius i.pole = i.power) {M : Pt} (hM : OnCircle C3.center C3.radius M)
    (hne : ¬ IsInverse i.pole i.power M M) {e : ℝ} (he : e = 1 ∨ e = -1) (h : sqDist S.center C3.center = (C3.radius + e * S.radius) ^ 2) :
    MeetOnce S.center S.radius C1.center C1.radius ∧ S.center ≠ C3.center := by
  have p1 : 0 < C1.radius := h1
  have p3 : 0 < C3.radius := h3
  have he2 : e ^ 2 = 1 := by rcases he with rfl | rfl <;> norm_num
  obtain ⟨hk0, s, hs, hk, hO⟩ := swap_ratio h1 h3 hi
  have hs1 := ratio_ne_one h1 h3 hi hs hk hO hM hne
  have hc := contact_image he2 hp hk hO h
  have hsr : s * C3.radius = C1.radius ∨ s * C3.radius = -C1.radius := by
    rcases hs with rfl | rfl
    · left; field_simp
    · right; field_simp
  -- the circle is not one of the exchanged circles
  have n3 : S.center ≠ C3.center := by
    intro hce
    have : (C3.radius + e * S.radius) ^ 2 = 0 := by rw [← h, hce]; simp [sqDist]
    have hre : S.radius ^ 2 = C3.radius ^ 2 := by
      have h0 : C3.radius + e * S.radius = 0 := pow_eq_zero_iff two_ne_zero |>.1 this
      linear_combination (e * S.radius - C3.radius) * h0 - S.radius ^ 2 * he2
    apply hs1
    unfold specPower at hp
    rw [hce, hre, sqDist_comm] at hp
    have : (s - 1) * i.power = 0 := by linear_combination hk - s * hp
    exact sub_eq_zero.1 ((mul_eq_zero.1 this).resolve_right hk0)
  have n1 : S.center ≠ C1.center := by
    intro hce
    have : (s * C3.radius + e * S.radius) ^ 2 = 0 := by rw [← hc, hce]; simp [sqDist]
    have hre : S.radius ^ 2 = s ^ 2 * C3.radius ^ 2 := by
      have h0 : s * C3.radius + e * S.radius = 0 := pow_eq_zero_iff two_ne_zero |>.1 this
      linear_combination (e * S.radius - s * C3.radius) * h0 - S.radius ^ 2 * he2
    apply hs1
    unfold specPower at hp
    rw [hce, hre, hO] at hp
    have e2 : sqDist i.pole (i.pole + s • (C3.center - i.pole)) = s ^ 2 * sqDist C3.center i.pole := by simp [sqDist]; ring
    rw [e2] at hp
    have : (s - 1) * i.power = 0 := by linear_combination hp - s * hk
    exact sub_eq_zero.1 ((mul_eq_zero.1 this).resolve_right hk0)
  refine ⟨?_, n3⟩
  rcases hsr with hsr | hsr
  · exact meetOnce_of hS p1 he n1 (by rw [hc, hsr])
  · refine meetOnce_of (e := -e) hS p1 (by rcases he with rfl | rfl <;> simp) n1 (by rw [hc, hsr]; ring)

/-- For circles of different radii, none inside the other, the ratio is the quotient of the radii. -/
theorem swap_ratio_ext {C1 C3 : Circle} (h1 : C1.Valid) (h3 : C3.Valid) (hr : C1.radius ≠ C3.radius)
    (hd : |C1.radius - C3.radius| < Spec.dist C1.center C3.center) {i : Inversion} (h : Inversion.from_swapping_two_circles C1 C3 true = some i) :
    C1.radius / C3.radius * (sqDist C3.center i.pole - C3.radius ^ 2) = i.power ∧
      C1.center = i.pole + (C1.radius / C3.radius) • (C3.center - i.pole) := by
  have p1 : 0 < C1.radius := h1
  have p3 : 0 < C3.radius := h3
  unfold Inversion.from_swapping_two_circles at h
  dsimp only at h
  rw [distance_eq, if_neg hr, if_pos (Or.inl rfl), if_neg] at h
  swap
  · intro hc
    have : max C1.radius C3.radius - min C1.radius C3.radius = |C1.radius - C3.radius| := max_sub_min_eq_abs' _ _
    linarith
  obtain rfl := Option.some.inj h
  dsimp only
  have hes := ext_sign h1 h3 hr
  obtain ⟨a1, a2, a3⟩ := iext_rel (O₁ := C1.center) (O₂ := C3.center) h1 h3 hr
  have hpos : 0 < dot1_ ((C1.center - (C1.radius / C3.radius / (1 - C1.radius / C3.radius)) • (C3.center - C1.center)) - C3.center) -
      C3.radius * C3.radius := by
    rw [hes]
    have h0 : 0 < (C1.radius - C3.radius) ^ 2 := by have := sub_ne_zero.2 hr; positivity
    have h2 : |C1.radius - C3.radius| ^ 2 < Spec.dist C1.center C3.center ^ 2 := pow_lt_pow_left₀ hd (abs_nonneg _) two_ne_zero
    rw [sq_abs] at h2
    apply mul_pos
    · positivity
    · linarith
  rw [abs_of_pos hpos, dot1_eq]
  obtain ⟨P, hP⟩ : ∃ P, P = C1.center - (C1.radius / C3.radius / (1 - C1.radius / C3.radius)) • (C3.center - C1.center) := ⟨_, rfl⟩
  rw [← hP] at a1 ⊢
  constructor
  · rw [sqDist_comm]; ring
  · have : C3.center - P = (C3.radius / C1.radius) • (C1.center - P) := by
      rw [a1]; ext <;> simp
    rw [this]
    ext <;> simp <;> field_simp <;> ring

theorem alike_iff {S C1 C2 C3 : Circle} (hS : 0 < S.radius) (p1 : 0 < C1.radius) (p2 : 0 < C2.radius) (p3 : 0 < C3.radius) :
    TouchAlike S.center S.radius C1.center C1.radius C2.center C2.radius C3.center C3.radius ↔
      ∃ e : ℝ, (e = 1 ∨ e = -1) ∧ sqDist S.center C1.center = (C1.radius + e * S.radius) ^ 2 ∧
        sqDist S.center C2.center = (C2.radius + e * S.radius) ^ 2 ∧ sqDist S.center C3.center = (C3.radius + e * S.radius) ^ 2 := by
  unfold TouchAlike ExtTangent
  rw [dist_eq_iff (by positivity), dist_eq_iff (by positivity), dist_eq_iff (by positivity), dist_eq_iff (abs_nonneg _), dist_eq_iff (abs_nonneg _),
    dist_eq_iff (abs_nonneg _), sq_abs, sq_abs, sq_abs]
  constructor
  · rintro (⟨a, b, c⟩ | ⟨a, b, c⟩)
    · exact ⟨1, Or.inl rfl, by rw [a]; ring, by rw [b]; ring, by rw [c]; ring⟩
    · exact ⟨-1, Or.inr rfl, by rw [a]; ring, by rw [b]; ring, by rw [c]; ring⟩
  · rintro ⟨e, rfl | rfl, a, b, c⟩
    · left; exact ⟨by rw [a]; ring, by rw [b]; ring, by rw [c]; ring⟩
    · right; exact ⟨by rw [a]; ring, by rw [b]; ring, by rw [c]; ring⟩

theorem sol_alike {C1 C2 C3 S0 S1 : Circle} {i1 i2 : Inversion} {H T0 T1 T : Pt} {S : Circle} (h1 : C1.Valid) (h2 : C2.Valid) (h3 : C3.Valid)
    (r1 : C1.radius ≠ C3.radius) (r2 : C2.radius ≠ C3.radius)
    (d1 : |C1.radius - C3.radius| < Spec.dist C1.center C3.center) (d2 : |C2.radius - C3.radius| < Spec.dist C2.center C3.center)
    (r : Run C1 C2 C3 S0 S1 i1 i2 H T0 T1) (hT : T = T0 ∨ T = T1) (t : Thru i1 i2 T S) :
    TouchAlike S.center S.radius C1.center C1.radius C2.center C2.radius C3.center C3.radius := by
  have p1 : 0 < C1.radius := h1
  have p2 : 0 < C2.radius := h2
  have p3 : 0 < C3.radius := h3
  rw [alike_iff t.pos p1 p2 p3]
  obtain ⟨e, he, hc⟩ := sol_touch h3 r hT t
  have he2 : e ^ 2 = 1 := by rcases he with rfl | rfl <;> norm_num
  obtain ⟨k1, o1⟩ := swap_ratio_ext h1 h3 r1 d1 r.inv1
  obtain ⟨k2, o2⟩ := swap_ratio_ext h2 h3 r2 d2 r.inv2
  have c1 := contact_image he2 t.pow1 k1 o1 hc
  have c2 := contact_image he2 t.pow2 k2 o2 hc
  rw [div_mul_cancel₀ _ p3.ne'] at c1 c2
  exact ⟨e, he, c1, c2, hc⟩

end ThreeTangent

/-- C103: for all circles, when the script finishes, it has found two different circles, and each of them has exactly one point in common with each
of the three given circles. -/
theorem C103_touch (C1 C2 C3 : Circle) (h1 : C1.Valid) (h2 : C2.Valid) (h3 : C3.Valid) (alpha : ℝ) (S0 S1 : Circle)
    (h : script C1 C2 C3 alpha = .ok (S0, S1)) :
    S0 ≠ S1 ∧ ∀ S, S = S0 ∨ S = S1 → 0 < S.radius ∧ MeetOnce S.center S.radius C1.center C1.radius ∧ MeetOnce S.center S.radius C2.center C2.radius ∧
      MeetOnce S.center S.radius C3.center C3.radius := by
  have p3 : 0 < C3.radius := h3
  obtain ⟨i1, i2, H, T0, T1, r⟩ := run_of h3 h
  have key : ∀ S T, (T = T0 ∨ T = T1) → Thru i1 i2 T S → 0 < S.radius ∧ MeetOnce S.center S.radius C1.center C1.radius ∧
      MeetOnce S.center S.radius C2.center C2.radius ∧ MeetOnce S.center S.radius C3.center C3.radius := by
    intro S T hT t
    obtain ⟨hc, -⟩ := (r.points T).2 hT
    obtain ⟨e, he, ht⟩ := sol_touch h3 r hT t
    obtain ⟨m1, n⟩ := sol_touch_image h1 h3 r.inv1 t.pos t.pow1 hc t.ne1 he ht
    obtain ⟨m2, -⟩ := sol_touch_image h2 h3 r.inv2 t.pos t.pow2 hc t.ne2 he ht
    exact ⟨t.pos, m1, m2, meetOnce_of t.pos p3 he n ht⟩
  have k0 := key S0 T0 (Or.inl rfl) r.sol0
  have k1 := key S1 T1 (Or.inr rfl) r.sol1
  constructor
  · rintro rfl
    obtain ⟨X, -, hu⟩ := k0.2.2.2
    apply r.ne
    rw [hu T0 ⟨r.sol0.mem, ((r.points T0).2 (Or.inl rfl)).1⟩, hu T1 ⟨r.sol1.mem, ((r.points T1).2 (Or.inr rfl)).1⟩]
  · rintro S (rfl | rfl)
    · exact k0
    · exact k1

/-- C103: if `C1` and `C2` have other radii than `C3` and none of the discs of `C1` and `C3` contains the other, nor of `C2` and `C3`, then the two
circles found are exactly the circles which touch the three circles in the same way (all from outside, or all with one disc inside the other). -/
theorem C103_all (C1 C2 C3 : Circle) (h1 : C1.Valid) (h2 : C2.Valid) (h3 : C3.Valid) (alpha : ℝ) (r1 : C1.radius ≠ C3.radius)
    (r2 : C2.radius ≠ C3.radius) (d1 : |C1.radius - C3.radius| < Spec.dist C1.center C3.center)
    (d2 : |C2.radius - C3.radius| < Spec.dist C2.center C3.center) (S0 S1 : Circle) (h : script C1 C2 C3 alpha = .ok (S0, S1)) (S : Circle) :
    (0 < S.radius ∧ TouchAlike S.center S.radius C1.center C1.radius C2.center C2.radius C3.center C3.radius) ↔ S = S0 ∨ S = S1 := by
  have p1 : 0 < C1.radius := h1
  have p2 : 0 < C2.radius := h2
  have p3 : 0 < C3.radius := h3
  obtain ⟨i1, i2, H, T0, T1, r⟩ := run_of h3 h
  constructor
  · rintro ⟨hS, ha⟩
    rw [alike_iff hS p1 p2 p3] at ha
    obtain ⟨e, he, a1, a2, a3⟩ := ha
    have he2 : e ^ 2 = 1 := by rcases he with rfl | rfl <;> norm_num
    obtain ⟨k1, o1⟩ := swap_ratio_ext h1 h3 r1 d1 r.inv1
    obtain ⟨k2, o2⟩ := swap_ratio_ext h2 h3 r2 d2 r.inv2
    have ns1 : C1.radius / C3.radius ≠ 1 := by rw [Ne, div_eq_one_iff_eq p3.ne']; exact r1
    have ns2 : C2.radius / C3.radius ≠ 1 := by rw [Ne, div_eq_one_iff_eq p3.ne']; exact r2
    have q1 := contact_power he2 ns1 k1 o1 a3 (by rw [div_mul_cancel₀ _ p3.ne', a1])
    have q2 := contact_power he2 ns2 k2 o2 a3 (by rw [div_mul_cancel₀ _ p3.ne', a2])
    have hne : S.center ≠ C3.center := by
      intro hce
      have h0 : C3.radius + e * S.radius = 0 := pow_eq_zero_iff two_ne_zero |>.1 (by rw [← a3, hce]; simp [sqDist])
      rcases he with rfl | rfl
      · linarith
      · have : S.radius = C3.radius := by linarith
        rw [hce, this, sqDist_comm] at a1
        have : Spec.dist C1.center C3.center = |C1.radius - C3.radius| := by
          rw [dist_eq_iff (abs_nonneg _), sq_abs, a1]; ring
        linarith
    obtain ⟨T, t1, t2, t3⟩ := tangent_of_contact hS p3 he hne a3 (r.base _ _ q1 q2)
    rcases (r.points T).1 ⟨t2, t3⟩ with rfl | rfl
    · left
      obtain ⟨ea, eb⟩ := r.sol0.uniq _ _ hS t1 q1 q2
      ext1
      · exact ea
      · exact eb
    · right
      obtain ⟨ea, eb⟩ := r.sol1.uniq _ _ hS t1 q1 q2
      ext1
      · exact ea
      · exact eb
  · rintro (rfl | rfl)
    · exact ⟨r.sol0.pos, sol_alike h1 h2 h3 r1 r2 d1 d2 r (Or.inl rfl) r.sol0⟩
    · exact ⟨r.sol1.pos, sol_alike h1 h2 h3 r1 r2 d1 d2 r (Or.inr rfl) r.sol1⟩

namespace ThreeTangent

theorem swap_pole_y {C1 C3 : Circle} (h : C1.center.y = C3.center.y) {i : Inversion} (hi : Inversion.from_swapping_two_circles C1 C3 true = some i) :
    i.pole.y = C3.center.y := by
  unfold Inversion.from_swapping_two_circles at hi
  dsimp only at hi
  split_ifs at hi with a b c d e f
  all_goals first
    | (obtain rfl := Option.some.inj hi; simp [h])
    | skip

end ThreeTangent

/-- C103, a limit: with the point at angle 0 of the script, three circles with centers at the same height are never solved, whatever their
positions and radii: the point and its two images are on the line of the centers. -/
theorem C103_aligned_counterexample (C1 C2 C3 : Circle) (h1 : C1.center.y = C3.center.y) (h2 : C2.center.y = C3.center.y) :
    ¬ ∃ r, script C1 C2 C3 0 = .ok r := by
  rintro ⟨r, h⟩
  unfold script at h
  rcases e1 : Inversion.from_swapping_two_circles C1 C3 true with _ | i1
  · rw [e1] at h; cases h
  rcases e2 : Inversion.from_swapping_two_circles C2 C3 true with _ | i2
  · rw [e1, e2] at h; cases h
  rw [e1, e2] at h
  obtain ⟨C, hC, -⟩ := Res.bind_ok.1 h
  have y1 := swap_pole_y h1 e1
  have y2 := swap_pole_y h2 e2
  have yM : (C3.point_from_angle 0).y = C3.center.y := by simp [Circle.point_from_angle, unit_vector_]
  unfold through at hC
  obtain ⟨M, hM⟩ : ∃ M, M = C3.point_from_angle 0 := ⟨_, rfl⟩
  rw [← hM] at yM hC
  have hinv : ∀ (i : Inversion) (N : Pt), i.pole.y = C3.center.y → i.invert (.fin M) = .fin N → N.y = C3.center.y := by
    intro i N hy hN
    obtain ⟨-, e⟩ := isInverse_iff.1 (invert_fin hN).2
    rw [e]; simp [hy, yM]
  rcases v1 : i1.invert (.fin M) with M1 | _
  swap
  · rcases v2 : i2.invert (.fin M) with M2 | _ <;> · rw [v1, v2] at hC; cases hC
  rcases v2 : i2.invert (.fin M) with M2 | _
  swap
  · rw [v1, v2] at hC; cases hC
  rw [v1, v2] at hC
  obtain ⟨T, hT, hC⟩ := Res.bind_ok.1 hC
  obtain ⟨r, hr, hC⟩ := Res.bind_ok.1 hC
  obtain rfl : (⟨M, M1, M2⟩ : Triangle) = T := Except.ok.inj hT
  rcases r with _ | C'
  · cases hC
  apply circumcircle_some hr
  unfold Collinear cross
  simp [hinv i1 M1 y1 v1, hinv i2 M2 y2 v2, yM]

namespace ThreeTangent

/-- The three circles of the script. -/
def sC1 : Circle := ⟨⟨0, 0⟩, 2⟩
def sC2 : Circle := ⟨⟨5, 5⟩, 3⟩
def sC3 : Circle := ⟨⟨6, -2⟩, 1⟩

theorem sdist1 : 6 < Spec.dist sC1.center sC3.center := by
  apply lt_of_pow_lt_pow_left₀ 2 (dist_nonneg _ _)
  rw [dist_sq]; norm_num [sqDist, sC1, sC3]

theorem sdist2 : 7 < Spec.dist sC2.center sC3.center := by
  apply lt_of_pow_lt_pow_left₀ 2 (dist_nonneg _ _)
  rw [dist_sq]; norm_num [sqDist, sC2, sC3]

theorem sinv1 : Inversion.from_swapping_two_circles sC1 sC3 true = some ⟨⟨12, -4⟩, 78⟩ := by
  have hd := sdist1
  unfold Inversion.from_swapping_two_circles
  dsimp only
  rw [distance_eq, if_neg (by norm_num [sC1, sC3]), if_pos (Or.inl rfl), if_neg]
  · congr 2
    · ext <;> norm_num [sC1, sC3]
    · norm_num [sC1, sC3, dot1_, dot_]
  · rw [show sC1.radius = 2 from rfl, show sC3.radius = 1 from rfl]
    norm_num
    linarith

theorem sinv2 : Inversion.from_swapping_two_circles sC2 sC3 true = some ⟨⟨13 / 2, -11 / 2⟩, 69 / 2⟩ := by
  have hd := sdist2
  unfold Inversion.from_swapping_two_circles
  dsimp only
  rw [distance_eq, if_neg (by norm_num [sC2, sC3]), if_pos (Or.inl rfl), if_neg]
  · congr 2
    · ext <;> norm_num [sC2, sC3]
    · norm_num [sC2, sC3, dot1_, dot_]
  · rw [show sC2.radius = 3 from rfl, show sC3.radius = 1 from rfl]
    norm_num
    linarith

/-- Every point of the third circle can be taken. -/
theorem sthrough {M : Pt} (hM : OnCircle sC3.center sC3.radius M) : ∃ C, through ⟨⟨12, -4⟩, 78⟩ ⟨⟨13 / 2, -11 / 2⟩, 69 / 2⟩ M = .ok C := by
  have hM' : (M.x - 6) ^ 2 + (M.y + 2) ^ 2 = 1 := by
    have := hM; simp only [OnCircle, sqDist, sC3] at this; linarith
  have bx : |M.x - 6| ≤ 1 := by rw [abs_le]; constructor <;> nlinarith [sq_nonneg (M.y + 2)]
  have by' : |M.y + 2| ≤ 1 := by rw [abs_le]; constructor <;> nlinarith [sq_nonneg (M.x - 6)]
  rw [abs_le] at bx by'
  have n1 : ¬ allclose (⟨12, -4⟩ : Pt) M := by
    intro h
    have := h.1
    unfold npClose at this
    rw [abs_le] at this
    have : |M.x| ≤ 7 := by rw [abs_le]; constructor <;> linarith
    linarith [this, h.1]
  have n2 : ¬ allclose (⟨13 / 2, -11 / 2⟩ : Pt) M := by
    intro h
    have := h.2
    unfold npClose at this
    rw [abs_le] at this
    have : |M.y| ≤ 3 := by rw [abs_le]; constructor <;> linarith
    linarith [this, h.2]
  have e1 : (⟨⟨12, -4⟩, 78⟩ : Inversion).invert (.fin M) = .fin (⟨12, -4⟩ + (78 / dot1_ (M - ⟨12, -4⟩)) • (M - ⟨12, -4⟩)) := by
    unfold Inversion.invert; dsimp only; rw [if_neg n1]
  have e2 : (⟨⟨13 / 2, -11 / 2⟩, 69 / 2⟩ : Inversion).invert (.fin M) =
      .fin (⟨13 / 2, -11 / 2⟩ + (69 / 2 / dot1_ (M - ⟨13 / 2, -11 / 2⟩)) • (M - ⟨13 / 2, -11 / 2⟩)) := by
    unfold Inversion.invert; dsimp only; rw [if_neg n2]
  refine through_ok e1 e2 ?_
  have f1 : dot1_ (M - ⟨12, -4⟩) = 41 - 12 * (M.x - 6) + 4 * (M.y + 2) := by
    simp [dot1_, dot_]; linear_combination hM'
  have f2 : dot1_ (M - ⟨13 / 2, -11 / 2⟩) = 27 / 2 - (M.x - 6) + 7 * (M.y + 2) := by
    simp [dot1_, dot_]; linear_combination hM'
  rw [f1, f2]
  obtain ⟨a, ha⟩ : ∃ a, a = M.x - 6 := ⟨_, rfl⟩
  obtain ⟨b, hb⟩ : ∃ b, b = M.y + 2 := ⟨_, rfl⟩
  have hx : M.x = a + 6 := by rw [ha]; ring
  have hy : M.y = b - 2 := by rw [hb]; ring
  rw [← ha, ← hb] at *
  obtain ⟨u, hu⟩ : ∃ u, u = 78 / (41 - 12 * a + 4 * b) := ⟨_, rfl⟩
  obtain ⟨v, hv⟩ : ∃ v, v = 69 / 2 / (27 / 2 - a + 7 * b) := ⟨_, rfl⟩
  rw [← hu, ← hv]
  have hu1 : u ≠ 1 := by rw [hu, Ne, div_eq_one_iff_eq (by linarith)]; intro h; linarith
  have hv1 : v ≠ 1 := by rw [hv, Ne, div_eq_one_iff_eq (by linarith)]; intro h; linarith
  have hc : (3 / 2 * a - 11 / 2 * b - 20) ≠ 0 := by intro h; linarith
  have : cross ((⟨12, -4⟩ : Pt) + u • (M - ⟨12, -4⟩) - M) ((⟨13 / 2, -11 / 2⟩ : Pt) + v • (M - ⟨13 / 2, -11 / 2⟩) - M) =
      (u - 1) * ((v - 1) * (3 / 2 * a - 11 / 2 * b - 20)) := by
    simp [cross, hx, hy]; ring
  unfold Collinear
  rw [this]
  exact mul_ne_zero (sub_ne_zero.2 hu1) (mul_ne_zero (sub_ne_zero.2 hv1) hc)

end ThreeTangent

/-- C103: with the three circles of the script, it finishes. -/
theorem C103_script : ∃ S0 S1, script ⟨⟨0, 0⟩, 2⟩ ⟨⟨5, 5⟩, 3⟩ ⟨⟨6, -2⟩, 1⟩ 0 = .ok (S0, S1) := by
  have hM : sC3.point_from_angle 0 = ⟨7, -2⟩ := by
    ext <;> simp [Circle.point_from_angle, unit_vector_, sC3]; norm_num
  have hMc : OnCircle sC3.center sC3.radius ⟨7, -2⟩ := by norm_num [OnCircle, sqDist, sC3]
  obtain ⟨C, hC⟩ := sthrough hMc
  have tC := through_spec hC
  -- the auxiliary circle
  have c1 := tC.mem
  have c2 := tC.pow1
  have c3 := tC.pow2
  unfold OnCircle at c1
  unfold specPower at c2 c3
  simp only [sqDist] at c1 c2 c3
  have cx : C.center.x = 263 / 74 := by linarith
  have cy : C.center.y = 121 / 74 := by linarith
  have cr : C.radius ^ 2 = 68693 / 2738 := by rw [cx, cy] at c1; linarith
  have ne3 : C.center ≠ sC3.center := by
    intro h; have := congrArg Pt.x h; rw [cx] at this; norm_num [sC3] at this
  have na3 : ¬ allclose C.center sC3.center := by
    intro h
    have := h.1
    unfold npClose at this
    rw [cx] at this
    norm_num [sC3, abs_of_neg, abs_of_pos] at this
  -- the radical axis
  obtain ⟨R, hR, -, -⟩ := C15_radical_center C sC3 ne3
  have hRe : R = ⟨663493 / 105122, -258933 / 105122⟩ := by
    unfold Circle.radical_center at hR
    dsimp only at hR
    split_ifs at hR with h0
    obtain rfl := Except.ok.inj hR
    have hk : C.radius * C.radius = 68693 / 2738 := by rw [← cr]; ring
    rw [hk]
    ext <;> simp [dot1_, dot_, cx, cy, sC3] <;> norm_num
  have hax : C.radical_axis sC3 = .ok (some ⟨R, ⟨R.x + 269 / 74, R.y + 181 / 74⟩, true, true⟩) := by
    rw [radical_axis_some]
    refine ⟨na3, R, hR, ?_⟩
    rw [mkLine_ok]
    rw [hRe]
    constructor
    · unfold allclose npClose; norm_num [cx, cy, sC3, abs_of_neg, abs_of_pos]
    · congr 1
      ext <;> norm_num [cx, cy, sC3]
  have hcl : mkLine (⟨12, -4⟩ : Pt) ⟨13 / 2, -11 / 2⟩ = .ok ⟨⟨12, -4⟩, ⟨13 / 2, -11 / 2⟩, true, true⟩ := by
    rw [mkLine_ok]
    refine ⟨?_, rfl⟩
    unfold allclose npClose; norm_num [abs_of_pos, abs_of_neg]
  obtain ⟨L, hLe⟩ : ∃ L : Line, L = ⟨R, ⟨R.x + 269 / 74, R.y + 181 / 74⟩, true, true⟩ := ⟨_, rfl⟩
  obtain ⟨cl, hcle⟩ : ∃ cl : Line, cl = ⟨⟨12, -4⟩, ⟨13 / 2, -11 / 2⟩, true, true⟩ := ⟨_, rfl⟩
  rw [← hLe] at hax
  rw [← hcle] at hcl
  have vL := (radical_axis_valid hax).1
  have vcl : cl.Valid := mkLine_valid hcl
  have hcr : cross (L.B - L.A) (cl.B - cl.A) = 296 / 37 := by
    rw [hLe, hcle]; norm_num [cross]
  have dL : Spec.dist L.A L.B ≤ 5 := by
    rw [dist_le_iff (by norm_num), hLe]; norm_num [sqDist]
  have dcl : Spec.dist cl.A cl.B ≤ 6 := by
    rw [dist_le_iff (by norm_num), hcle]; norm_num [sqDist]
  obtain ⟨H, hH⟩ : ∃ H, Line.intersection_line_line L cl = some H := by
    apply Option.ne_none_iff_exists'.1
    rw [Ne, C12_intersection_none_iff]
    rintro (h | h | h)
    · have := is_equal_cross L cl vL vcl h
      rw [hcr, abs_of_pos (by norm_num)] at this
      nlinarith [dist_nonneg L.A L.B, dist_nonneg cl.A cl.B]
    · unfold Line.is_parallel det2x2_ at h
      dsimp only at h
      rw [hLe, hcle] at h
      norm_num [sepsilon_, abs_of_pos, abs_of_neg] at h
    · cases h
  obtain ⟨⟨oL, ocl⟩, -⟩ := C12_intersection_sound L cl vL vcl _ _ hH
  have hHe : H = ⟨-45 / 32, -245 / 32⟩ := by
    rw [onLine_iff_cross (ne_of_not_allclose vL)] at oL
    rw [onLine_iff_cross (ne_of_not_allclose vcl)] at ocl
    rw [hLe, hRe] at oL
    rw [hcle] at ocl
    norm_num [cross] at oL ocl
    ext
    · dsimp only; linarith
    · dsimp only; linarith
  subst hHe
  have naH : ¬ allclose (⟨-45 / 32, -245 / 32⟩ : Pt) sC3.center := by
    unfold allclose npClose; norm_num [sC3, abs_of_pos, abs_of_neg]
  obtain ⟨Cp, hCp, vCp, hCpm⟩ := (C19_circleAB (⟨-45 / 32, -245 / 32⟩ : Pt) sC3.center).2 naH
  have hCpe : Cp.center = ⟨147 / 64, -309 / 64⟩ ∧ Cp.radius ^ 2 = 44465 / 2048 := by
    unfold circleAB at hCp
    rw [if_neg naH] at hCp
    obtain ⟨-, rfl⟩ := mkCircle_ok.1 hCp
    constructor
    · ext <;> norm_num [sC3]
    · dsimp only
      rw [div_pow, distance_eq, dist_sq]; norm_num [sqDist, sC3]
  have v3 : sC3.Valid := by norm_num [Circle.Valid, sC3]
  have hCr : 4 < Cp.radius := by
    have : 0 < Cp.radius := vCp
    nlinarith [hCpe.2]
  obtain ⟨T0, T1, hT⟩ := C22_two_of_secant sC3 Cp v3 vCp (by
      intro h
      have := h.2.1
      unfold npClose at this
      rw [hCpe.1] at this
      norm_num [sC3, abs_of_pos, abs_of_neg] at this) (by
      have e : sqDist sC3.center Cp.center = 44465 / 2048 := by rw [hCpe.1]; norm_num [sqDist, sC3]
      rw [e, show sC3.radius = 1 from rfl]
      nlinarith [hCpe.2]) (by
      have e : sqDist sC3.center Cp.center = 44465 / 2048 := by rw [hCpe.1]; norm_num [sqDist, sC3]
      rw [e, show sC3.radius = 1 from rfl]
      nlinarith [hCpe.2])
  obtain ⟨-, hpts⟩ := C22_two _ _ v3 vCp _ _ hT
  obtain ⟨S0, hS0⟩ := sthrough ((hpts T0).2 (Or.inl rfl)).1
  obtain ⟨S1, hS1⟩ := sthrough ((hpts T1).2 (Or.inr rfl)).1
  refine ⟨S0, S1, ?_⟩
  show script sC1 sC2 sC3 0 = _
  unfold script
  rw [sinv1, sinv2]
  dsimp only
  rw [hM, hC, Res.ok_bind, hcl, Res.ok_bind, hax, Res.ok_bind]
  dsimp only
  rw [hH]
  show (circleAB _ _ >>= _) = _
  rw [hCp, Res.ok_bind, hT, Res.ok_bind]
  show (through _ _ T0 >>= _) = _
  rw [hS0, Res.ok_bind, hS1, Res.ok_bind]
  rfl

/-- The figure of the script: the circles found are the two circles which touch the three given circles in the same way. -/
example : ∃ S0 S1, script ⟨⟨0, 0⟩, 2⟩ ⟨⟨5, 5⟩, 3⟩ ⟨⟨6, -2⟩, 1⟩ 0 = .ok (S0, S1) ∧ S0 ≠ S1 ∧ ∀ S : Circle,
    (0 < S.radius ∧ TouchAlike S.center S.radius ⟨0, 0⟩ 2 ⟨5, 5⟩ 3 ⟨6, -2⟩ 1) ↔ S = S0 ∨ S = S1 := by
  obtain ⟨S0, S1, h⟩ := C103_script
  have v1 : sC1.Valid := by norm_num [Circle.Valid, sC1]
  have v2 : sC2.Valid := by norm_num [Circle.Valid, sC2]
  have v3 : sC3.Valid := by norm_num [Circle.Valid, sC3]
  have e1 : |sC1.radius - sC3.radius| = 1 := by norm_num [sC1, sC3]
  have e2 : |sC2.radius - sC3.radius| = 2 := by norm_num [sC2, sC3]
  refine ⟨S0, S1, h, (C103_touch sC1 sC2 sC3 v1 v2 v3 0 S0 S1 h).1, ?_⟩
  exact C103_all sC1 sC2 sC3 v1 v2 v3 0 (by norm_num [sC1, sC3]) (by norm_num [sC2, sC3]) (by rw [e1]; linarith [sdist1]) (by rw [e2]; linarith [sdist2])
    S0 S1 h
