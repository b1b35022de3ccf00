import Verif.Model.Billiard
import Verif.Spec.Billiard
import Verif.Props.EllipseAngle
import Verif.Props.Affine

/-!
# C94: the elliptical billiard of the examples
-/

open Spec Real Classical

/-! ### The specification -/

/-- The dual equation means what it says for a confocal ellipse: exactly one common point. -/
theorem touchesConfocal_iff {a b lam : ℝ} (ha : 0 < a ^ 2 - lam) (hb : 0 < b ^ 2 - lam) {A B : Pt} (hAB : A ≠ B) :
    TouchesConfocal a b lam A B ↔
      ∃! X, OnLine A B X ∧ X.x ^ 2 / (a ^ 2 - lam) + X.y ^ 2 / (b ^ 2 - lam) = 1 := by
  obtain ⟨p, hp⟩ : ∃ p, p = a ^ 2 - lam := ⟨_, rfl⟩
  obtain ⟨q, hq⟩ : ∃ q, q = b ^ 2 - lam := ⟨_, rfl⟩
  unfold TouchesConfocal cross
  rw [← hp] at ha ⊢
  rw [← hq] at hb ⊢
  obtain ⟨x, y⟩ := A
  obtain ⟨z, w⟩ := B
  simp only
  obtain ⟨dx, hdx⟩ : ∃ d, d = z - x := ⟨_, rfl⟩
  obtain ⟨dy, hdy⟩ : ∃ d, d = w - y := ⟨_, rfl⟩
  have hz : z = x + dx := by linarith
  have hw : w = y + dy := by linarith
  subst hz hw
  have hne : 0 < q * dx ^ 2 + p * dy ^ 2 := by
    by_contra hcon
    have h1 : dx = 0 := by
      by_contra h
      have : 0 < q * dx ^ 2 := by positivity
      nlinarith [mul_nonneg ha.le (sq_nonneg dy)]
    have h2 : dy = 0 := by
      by_contra h
      have : 0 < p * dy ^ 2 := by positivity
      nlinarith [mul_nonneg hb.le (sq_nonneg dx)]
    apply hAB
    rw [h1, h2, add_zero, add_zero]
  obtain ⟨K, hK⟩ : ∃ K, K = q * dx ^ 2 + p * dy ^ 2 := ⟨_, rfl⟩
  obtain ⟨M, hM⟩ : ∃ M, M = q * x * dx + p * y * dy := ⟨_, rfl⟩
  obtain ⟨N, hN⟩ : ∃ N, N = q * x ^ 2 + p * y ^ 2 - p * q := ⟨_, rfl⟩
  have hquad : ∀ t : ℝ, (x + t * dx) ^ 2 / p + (y + t * dy) ^ 2 / q = 1 ↔ K * t ^ 2 + 2 * M * t + N = 0 := by
    intro t
    rw [div_add_div _ _ ha.ne' hb.ne', div_eq_one_iff_eq (by positivity), hK, hM, hN]
    constructor <;> intro h <;> linear_combination h
  have hdisc : (p * (y - (y + dy)) ^ 2 + q * (x + dx - x) ^ 2 = (x * (y + dy) - y * (x + dx)) ^ 2) ↔ M ^ 2 = K * N := by
    have : M ^ 2 - K * N = p * q * (p * (y - (y + dy)) ^ 2 + q * (x + dx - x) ^ 2 - (x * (y + dy) - y * (x + dx)) ^ 2) := by
      rw [hK, hM, hN]; ring
    constructor
    · intro h
      rw [h, sub_self, mul_zero] at this
      linarith
    · intro h
      rw [h, sub_self, zero_eq_mul] at this
      rcases this with h | h
      · exact absurd h (by positivity)
      · linarith
  rw [← hK] at hne
  rw [hdisc]
  have hon : ∀ t : ℝ, (⟨x, y⟩ : Pt) + t • ((⟨x + dx, y + dy⟩ : Pt) - ⟨x, y⟩) = ⟨x + t * dx, y + t * dy⟩ := by
    intro t; ext <;> simp
  constructor
  · intro h
    refine ⟨⟨x + (-M / K) * dx, y + (-M / K) * dy⟩, ⟨⟨-M / K, (hon _).symm⟩, ?_⟩, ?_⟩
    · rw [hquad]
      field_simp
      linear_combination -h
    · rintro X ⟨⟨t, rfl⟩, ht⟩
      rw [hon] at ht ⊢
      simp only at ht
      rw [hquad] at ht
      have : (K * t + M) ^ 2 = 0 := by linear_combination K * ht + h
      have : K * t + M = 0 := by simpa using this
      have : t = -M / K := by rw [eq_div_iff hne.ne']; linarith
      rw [this]
  · rintro ⟨X, ⟨⟨t, rfl⟩, ht⟩, hu⟩
    rw [hon] at ht hu
    simp only at ht
    rw [hquad] at ht
    have h2 := hu ⟨x + (-2 * M / K - t) * dx, y + (-2 * M / K - t) * dy⟩ ⟨⟨-2 * M / K - t, (hon _).symm⟩, by
      rw [hquad]
      field_simp
      linear_combination K * ht⟩
    simp only [Pt.mk.injEq, add_right_inj] at h2
    have hd : dx ≠ 0 ∨ dy ≠ 0 := by
      by_contra hcon
      push Not at hcon
      rw [hK, hcon.1, hcon.2] at hne
      simp at hne
    have h3 : -2 * M / K - t = t := by
      rcases hd with h | h
      · exact mul_right_cancel₀ h h2.1
      · exact mul_right_cancel₀ h h2.2
    have h4 : M = -K * t := by
      have : -2 * M / K = 2 * t := by linarith
      rw [div_eq_iff hne.ne'] at this
      linarith
    rw [h4] at ht ⊢
    linear_combination -K * ht

/-- For `λ = b²` the conic degenerates to the two foci: the line passes through a focus. -/
theorem touchesConfocal_focus {a b f : ℝ} (hf : f ^ 2 = a ^ 2 - b ^ 2) {A B : Pt} (hAB : A ≠ B) :
    TouchesConfocal a b (b ^ 2) A B ↔ OnLine A B ⟨f, 0⟩ ∨ OnLine A B ⟨-f, 0⟩ := by
  rw [onLine_iff_cross hAB, onLine_iff_cross hAB]
  unfold TouchesConfocal cross
  rw [← hf]
  simp only [Pt.sub_x, Pt.sub_y]
  constructor
  · intro h
    have : ((B.x - A.x) * (0 - A.y) - (B.y - A.y) * (f - A.x)) * ((B.x - A.x) * (0 - A.y) - (B.y - A.y) * (-f - A.x)) = 0 := by
      linear_combination -h
    exact mul_eq_zero.1 this
  · rintro (h | h)
    · linear_combination (-1 : ℝ) * ((B.x - A.x) * (0 - A.y) - (B.y - A.y) * (-f - A.x)) * h
    · linear_combination (-1 : ℝ) * ((B.x - A.x) * (0 - A.y) - (B.y - A.y) * (f - A.x)) * h

/-! ### Lemmas -/

theorem onTable_iff {e : Ellipse} (he : e.Valid) (hc : e.center = ⟨0, 0⟩) (ha : e.alpha = 0) (P : Pt) :
    OnArg (.ell e) P ↔ OnTable e.rmajor e.rminor P := by
  have hrad : e.rad = 0 := by unfold Ellipse.rad; rw [ha]; simp
  obtain ⟨h1, h2⟩ := he
  show OnEllipse _ _ _ _ _ ↔ _
  rw [onEllipse_iff h1 h2, hc, hrad]
  unfold ellVal OnTable axisCoord
  simp only [cos_zero, sin_zero]
  rw [div_add_div _ _ (by positivity) (by positivity), div_eq_one_iff_eq (by positivity)]
  constructor <;> intro h
  · field_simp at h
    linear_combination h
  · field_simp
    linear_combination h

/-- A chord makes an acute angle with the outer normal at its end. -/
theorem gradient_chord {a b : ℝ} (ha : 0 < a) (hb : 0 < b) {Q X : Pt} (hQ : OnTable a b Q) (hX : OnTable a b X) (hne : X ≠ Q) :
    dot (gradient a b Q) (X - Q) < 0 := by
  unfold OnTable at hQ hX
  have key : dot (gradient a b Q) (X - Q) = -(((X.x - Q.x) ^ 2 / a ^ 2 + (X.y - Q.y) ^ 2 / b ^ 2) / 2) := by
    unfold dot gradient
    simp only [Pt.sub_x, Pt.sub_y]
    linear_combination (1 / 2) * hX - (1 / 2) * hQ
  rw [key]
  have : 0 < (X.x - Q.x) ^ 2 / a ^ 2 + (X.y - Q.y) ^ 2 / b ^ 2 := by
    by_cases hx : X.x = Q.x
    · have hy : X.y - Q.y ≠ 0 := fun h => hne (Pt.ext hx (by linarith))
      positivity
    · have hx' : X.x - Q.x ≠ 0 := sub_ne_zero.2 hx
      positivity
  linarith

/-- The eccentric angle computed by `theta2t` is that of one of the two points of the ellipse on the line through the
center in the direction `θ`. -/
theorem theta2t_line {e : Ellipse} (he : e.Valid) {θ t : ℝ} (h : e.theta2t θ false = .ok t) :
    ∃ l : ℝ, l ≠ 0 ∧ e.rmajor * cos t = l * cos θ ∧ e.rminor * sin t = l * sin θ := by
  obtain ⟨h1, h2⟩ := he
  unfold Ellipse.theta2t at h
  simp only [Bool.false_eq_true, if_false] at h
  obtain ⟨u, hu⟩ : ∃ u, u = pyMod θ (2 * π) := ⟨_, rfl⟩
  have hdir : cos θ = cos u ∧ sin θ = sin u := by
    have hn : θ = u + (⌊θ / (2 * π)⌋ : ℤ) * (2 * π) := by rw [hu]; unfold pyMod; ring
    constructor
    · conv_lhs => rw [hn]
      exact cos_add_int_mul_two_pi _ _
    · conv_lhs => rw [hn]
      exact sin_add_int_mul_two_pi _ _
  rw [hdir.1, hdir.2]
  rw [← hu] at h
  by_cases hs : sin u = 0
  · rw [if_pos hs] at h; simp at h
  rw [if_neg hs] at h
  obtain ⟨E, hE⟩ : ∃ E, E = θ + (if u < sepsilon_ then (1 : ℝ) else -1) * sepsilon_ := ⟨_, rfl⟩
  rw [← hE] at h
  have hk : t = atan2 (e.rmajor / e.rminor) (cos u / sin u) + (⌊E / π⌋ : ℤ) * π := by
    have := Except.ok.inj h
    rw [← this]
    unfold pyMod; ring
  obtain ⟨c1, c2⟩ := cos_add_int_pi (atan2 (e.rmajor / e.rminor) (cos u / sin u)) ⌊E / π⌋
  rw [← hk] at c1 c2
  obtain ⟨j, hj⟩ : ∃ j : ℝ, j = (-1) ^ ⌊E / π⌋ := ⟨_, rfl⟩
  have hj0 : j ≠ 0 := by rw [hj]; exact zpow_ne_zero _ (by norm_num)
  have hy : e.rmajor / e.rminor ≠ 0 := by positivity
  obtain ⟨ρ, hρ⟩ : ∃ ρ, ρ = sqrt (cos u / sin u * (cos u / sin u) + e.rmajor / e.rminor * (e.rmajor / e.rminor)) := ⟨_, rfl⟩
  have hρ0 : ρ ≠ 0 := by
    rw [hρ]; apply (Real.sqrt_pos.2 _).ne'
    have : 0 < e.rmajor / e.rminor * (e.rmajor / e.rminor) := by positivity
    nlinarith [mul_self_nonneg (cos u / sin u)]
  rw [cos_atan2 (Or.inr hy), ← hρ, ← hj] at c1
  rw [sin_atan2, ← hρ, ← hj] at c2
  refine ⟨e.rmajor * j / (ρ * sin u), by positivity, ?_, ?_⟩
  · rw [c1]; field_simp
  · rw [c2]; field_simp

/-- The normal used in the loop is a unit multiple of the gradient. -/
theorem loop_normal {e : Ellipse} (he : e.Valid) (ha : e.alpha = 0) {Q n : Pt} (hQ : Q ≠ ⟨0, 0⟩) {t : ℝ}
    (h : e.theta2t (atan2 Q.y Q.x) false = .ok t) (hn : e.normal t = .ok n) :
    n.x ^ 2 + n.y ^ 2 = 1 ∧ ∃ m : ℝ, n = m • gradient e.rmajor e.rminor Q := by
  obtain ⟨v, hv, hu, -⟩ := C68_normal e he t
  rw [hn] at hv
  rw [← Except.ok.inj hv] at hu
  refine ⟨hu, ?_⟩
  obtain ⟨l, hl, e1, e2⟩ := theta2t_line he h
  obtain ⟨h1, h2⟩ := he
  have hQ' : Q.x ≠ 0 ∨ Q.y ≠ 0 := by
    by_contra hcon
    push Not at hcon
    exact hQ (Pt.ext hcon.1 hcon.2)
  obtain ⟨ρ, hρ⟩ : ∃ ρ, ρ = sqrt (Q.x * Q.x + Q.y * Q.y) := ⟨_, rfl⟩
  have hρ0 : ρ ≠ 0 := by
    rw [hρ]; apply (Real.sqrt_pos.2 _).ne'
    rcases hQ' with h | h <;> nlinarith [mul_self_pos.2 h, mul_self_nonneg Q.x, mul_self_nonneg Q.y]
  rw [cos_atan2 hQ', ← hρ] at e1
  rw [sin_atan2, ← hρ] at e2
  unfold Ellipse.normal at hn
  rw [ha] at hn
  simp only [zero_mul, ite_self, cos_zero, sin_zero] at hn
  obtain ⟨L, hL⟩ : ∃ L, L = vlength_ ⟨0 + 1 * (e.rminor * cos t), -1 * (-e.rmajor * sin t) + 0⟩ := ⟨_, rfl⟩
  rw [← hL] at hn
  by_cases hz : L = 0
  · rw [if_pos hz] at hn; simp at hn
  rw [if_neg hz] at hn
  rw [← Except.ok.inj hn]
  have c1 : cos t = l * (Q.x / ρ) / e.rmajor := by field_simp; field_simp at e1; linarith
  have c2 : sin t = l * (Q.y / ρ) / e.rminor := by field_simp; field_simp at e2; linarith
  refine ⟨l * e.rmajor * e.rminor / (ρ * L), ?_⟩
  unfold gradient
  ext
  · simp only [Pt.div_x, Pt.smul_x, c1]; field_simp; ring
  · simp only [Pt.div_y, Pt.smul_y, c2]; field_simp; ring

theorem onTable_ne_zero {a b : ℝ} {Q : Pt} (hQ : OnTable a b Q) : Q ≠ ⟨0, 0⟩ := by
  rintro rfl
  unfold OnTable at hQ
  norm_num at hQ

/-- The algebra of a bounce. -/
theorem bounce_of {a b : ℝ} (ha : 0 < a) (hb : 0 < b) {P P0 Q R n : Pt} {m s : ℝ} (hP : OnTable a b P) (hQ : OnTable a b Q)
    (hR : OnTable a b R) (hPQ : P ≠ Q) (hRQ : R ≠ Q) (hP0 : OnLine P Q P0) (hn : n.x ^ 2 + n.y ^ 2 = 1)
    (hm : n = m • gradient a b Q) (hs : R = Q + s • Billiard.reflect (Q - P0) n) : Bounces a b P Q R := by
  obtain ⟨τ, rfl⟩ := hP0
  obtain ⟨g, hg⟩ : ∃ g, g = gradient a b Q := ⟨_, rfl⟩
  have k1 := gradient_chord ha hb hQ hP hPQ
  have k2 := gradient_chord ha hb hQ hR hRQ
  unfold Bounces
  rw [← hg] at hm k1 k2 ⊢
  obtain ⟨σ, hσ⟩ : ∃ σ, σ = s * (1 - τ) := ⟨_, rfl⟩
  have hw : R - Q = σ • ((Q - P) - (2 * dot n (Q - P)) • n) := by
    rw [hs, hσ]
    unfold Billiard.reflect dot_ dot
    ext
    · simp only [Pt.sub_x, Pt.sub_y, Pt.add_x, Pt.add_y, Pt.smul_x, Pt.smul_y]; ring
    · simp only [Pt.sub_x, Pt.sub_y, Pt.add_x, Pt.add_y, Pt.smul_x, Pt.smul_y]; ring
  have hw1 : R.x - Q.x = σ * ((Q.x - P.x) - 2 * dot n (Q - P) * n.x) := congrArg Pt.x hw
  have hw2 : R.y - Q.y = σ * ((Q.y - P.y) - 2 * dot n (Q - P) * n.y) := congrArg Pt.y hw
  have hmx : n.x = m * g.x := congrArg Pt.x hm
  have hmy : n.y = m * g.y := congrArg Pt.y hm
  unfold dot at hw1 hw2 k1 k2 ⊢
  unfold cross
  simp only [Pt.sub_x, Pt.sub_y] at hw1 hw2 k1 k2 ⊢
  have hm2 : m ^ 2 * (g.x ^ 2 + g.y ^ 2) = 1 := by rw [hmx, hmy] at hn; linear_combination hn
  have hdot : g.x * (R.x - Q.x) + g.y * (R.y - Q.y) = -σ * (g.x * (Q.x - P.x) + g.y * (Q.y - P.y)) := by
    rw [hw1, hw2, hmx, hmy]
    linear_combination -2 * σ * (g.x * (Q.x - P.x) + g.y * (Q.y - P.y)) * hm2
  have hcr : g.x * (R.y - Q.y) - g.y * (R.x - Q.x) = σ * (g.x * (Q.y - P.y) - g.y * (Q.x - P.x)) := by
    rw [hw1, hw2, hmx, hmy]; ring
  have hσ0 : 0 < σ := by
    by_contra hcon
    push Not at hcon
    have : 0 ≤ -σ * (g.x * (Q.x - P.x) + g.y * (Q.y - P.y)) := mul_nonneg (by linarith) (by linarith)
    linarith
  have hd : dist Q R = σ * dist P Q := by
    rw [dist_eq_iff (mul_nonneg hσ0.le (dist_nonneg _ _)), mul_pow, dist_sq]
    unfold sqDist
    rw [show (Q.x - R.x) ^ 2 + (Q.y - R.y) ^ 2 = (R.x - Q.x) ^ 2 + (R.y - Q.y) ^ 2 by ring, hw1, hw2]
    linear_combination 4 * σ ^ 2 * (n.x * (Q.x - P.x) + n.y * (Q.y - P.y)) ^ 2 * hn
  rw [hd, hdot, hcr]
  constructor <;> ring

/-- One pass of the loop. -/
theorem step_spec {e : Ellipse} (he : e.Valid) (hc : e.center = ⟨0, 0⟩) (ha : e.alpha = 0) {P P0 Q : Pt}
    (hP : OnTable e.rmajor e.rminor P) (hQ : OnTable e.rmajor e.rminor Q) (hPQ : P ≠ Q) (hP0 : OnLine P Q P0)
    {seg : Line} {P1 Q1 : Pt} (h : Billiard.step e P0 Q = .ok (seg, P1, Q1)) :
    P0 ≠ Q ∧ P1 = Q ∧ ∃ R, OnTable e.rmajor e.rminor R ∧ R ≠ Q ∧ ((seg.A, seg.B) = (Q, R) ∨ (seg.A, seg.B) = (R, Q)) ∧
      Bounces e.rmajor e.rminor P Q R ∧ (Q1 = R ∨ Q1 = Q) := by
  unfold Billiard.step at h
  dsimp only at h
  obtain ⟨t, ht, h⟩ := Res.bind_ok.1 h
  obtain ⟨n, hn, h⟩ := Res.bind_ok.1 h
  obtain ⟨l, hl, h⟩ := Res.bind_ok.1 h
  obtain ⟨hnc, rfl⟩ := mkLine_ok.1 hl
  obtain ⟨r, hr, h⟩ := Res.bind_ok.1 h
  obtain ⟨hn1, m, hm⟩ := loop_normal he ha (onTable_ne_zero hQ) ht hn
  have hne := ne_of_not_allclose hnc
  refine ⟨?_, ?_⟩
  · rintro rfl
    apply hne
    unfold Billiard.reflect dot_
    ext <;> simp
  cases r with
  | none => simp at h
  | one I => simp at h
  | two I J =>
    simp only at h
    obtain ⟨l', hl', h⟩ := Res.bind_ok.1 h
    obtain ⟨-, rfl⟩ := mkLine_ok.1 hl'
    obtain ⟨h1, h2⟩ := C70_two (.ell e) he ⟨Q, Q + Billiard.reflect (Q - P0) n, true, true⟩ hnc I J hr
    simp only [onTable_iff he hc ha] at h2
    have h3 := Except.ok.inj h
    simp only [Prod.mk.injEq] at h3
    obtain ⟨rfl, rfl, rfl⟩ := h3
    refine ⟨rfl, ?_⟩
    have hQI : Q = I ∨ Q = J := (h2 Q).1 ⟨⟨0, by ext <;> simp⟩, hQ⟩
    have hbounce : ∀ R, OnLine Q (Q + Billiard.reflect (Q - P0) n) R → OnTable e.rmajor e.rminor R → R ≠ Q →
        Bounces e.rmajor e.rminor P Q R := by
      rintro R ⟨s, hs⟩ hR hRQ
      refine bounce_of he.1 he.2 (s := s) hP hQ hR hPQ hRQ hP0 hn1 hm (hs.trans ?_)
      ext <;> simp
    obtain ⟨i1, i2⟩ := (h2 I).2 (Or.inl rfl)
    obtain ⟨j1, j2⟩ := (h2 J).2 (Or.inr rfl)
    rcases hQI with rfl | rfl
    · refine ⟨J, j2, h1.symm, Or.inl rfl, hbounce J j1 j2 h1.symm, Or.inl ?_⟩
      rw [if_pos (allclose_refl _)]
    · refine ⟨I, i2, h1, Or.inr rfl, hbounce I i1 i2 h1, ?_⟩
      by_cases hcl : allclose Q I
      · exact Or.inr (if_pos hcl)
      · exact Or.inl (if_neg hcl)

theorem steps_spec {e : Ellipse} (he : e.Valid) (hc : e.center = ⟨0, 0⟩) (ha : e.alpha = 0) :
    ∀ (k : ℕ) {P P0 Q : Pt} (_ : OnTable e.rmajor e.rminor P) (_ : OnTable e.rmajor e.rminor Q) (_ : P ≠ Q)
      (_ : OnLine P Q P0) {segs : List Line} (_ : Billiard.steps e k P0 Q = .ok segs),
      segs.length = k ∧ ContinuesPath e.rmajor e.rminor P Q (segs.map fun s => (s.A, s.B)) := by
  intro k
  induction k with
  | zero =>
    intro P P0 Q _ _ _ _ segs h
    unfold Billiard.steps at h
    rw [← Except.ok.inj h]
    exact ⟨rfl, trivial⟩
  | succ k ih =>
    intro P P0 Q hP hQ hPQ hP0 segs h
    unfold Billiard.steps at h
    obtain ⟨⟨seg, P1, Q1⟩, h1, h⟩ := Res.bind_ok.1 h
    simp only at h
    obtain ⟨rest, h2, h⟩ := Res.bind_ok.1 h
    rw [← Except.ok.inj h]
    obtain ⟨-, rfl, R, hR, hRQ, hseg, hb, hQ1⟩ := step_spec he hc ha hP hQ hPQ hP0 h1
    rcases hQ1 with rfl | rfl
    · obtain ⟨e1, e2⟩ := ih hQ hR hRQ.symm ⟨0, by ext <;> simp⟩ h2
      exact ⟨by simp [e1], Q1, hR, hRQ, hseg, hb, e2⟩
    · -- the loop is stuck: only possible in the last pass
      cases k with
      | zero =>
        unfold Billiard.steps at h2
        rw [← Except.ok.inj h2]
        exact ⟨rfl, R, hR, hRQ, hseg, hb, trivial⟩
      | succ k =>
        exfalso
        unfold Billiard.steps at h2
        obtain ⟨⟨seg', P2, Q2⟩, h3, -⟩ := Res.bind_ok.1 h2
        exact (step_spec he hc ha hP hQ hPQ ⟨1, by ext <;> simp⟩ h3).1 rfl

/-- The two chords at a bounce touch the same confocal conic. -/
theorem caustic_bounce {a b lam : ℝ} (ha : 0 < a) (hb : 0 < b) {P Q R : Pt} (hP : OnTable a b P) (hQ : OnTable a b Q)
    (hR : OnTable a b R) (hPQ : P ≠ Q) (h : Bounces a b P Q R) (hl : TouchesConfocal a b lam P Q) :
    TouchesConfocal a b lam Q R := by
  have hJ : ∀ X, b ^ 2 * (Q.x - X.x) ^ 2 + a ^ 2 * (Q.y - X.y) ^ 2 - cross X Q ^ 2 = a ^ 2 * b ^ 2 * dot (gradient a b Q) (Q - X) ^ 2 := by
    intro X
    have hQ' : Q.x ^ 2 * b ^ 2 + Q.y ^ 2 * a ^ 2 = a ^ 2 * b ^ 2 := by
      unfold OnTable at hQ
      field_simp at hQ
      linear_combination hQ
    unfold cross dot gradient
    simp only [Pt.sub_x, Pt.sub_y]
    field_simp
    linear_combination (-(b ^ 2 * (Q.x - X.x) ^ 2 + a ^ 2 * (Q.y - X.y) ^ 2)) * hQ'
  obtain ⟨h1, -⟩ := h
  have hsq : sqDist Q R * dot (gradient a b Q) (Q - P) ^ 2 = sqDist P Q * dot (gradient a b Q) (Q - R) ^ 2 := by
    have e1 : dot (gradient a b Q) (Q - R) = -dot (gradient a b Q) (R - Q) := by unfold dot; simp only [Pt.sub_x, Pt.sub_y]; ring
    rw [← dist_sq, ← dist_sq, e1]
    linear_combination (dist Q R * dot (gradient a b Q) (Q - P) - dist P Q * dot (gradient a b Q) (R - Q)) * h1
  have k1 := hJ P
  have k2 := hJ R
  have hD := sqDist_pos hPQ
  obtain ⟨GP, hGP⟩ : ∃ G, G = dot (gradient a b Q) (Q - P) := ⟨_, rfl⟩
  obtain ⟨GR, hGR⟩ : ∃ G, G = dot (gradient a b Q) (Q - R) := ⟨_, rfl⟩
  rw [← hGP] at hsq k1
  rw [← hGR] at hsq k2
  have e1 : a ^ 2 * b ^ 2 * GP ^ 2 = lam * sqDist P Q := by
    unfold TouchesConfocal at hl
    unfold sqDist
    linear_combination -k1 + hl
  have e2 : a ^ 2 * b ^ 2 * GR ^ 2 = lam * sqDist Q R := by
    apply mul_left_cancel₀ hD.ne'
    linear_combination -a ^ 2 * b ^ 2 * hsq + sqDist Q R * e1
  unfold TouchesConfocal
  unfold sqDist at e2
  unfold cross at k2 ⊢
  linear_combination k2 + e2

theorem caustic_path {a b lam : ℝ} (ha : 0 < a) (hb : 0 < b) : ∀ (segs : List (Pt × Pt)) {P Q : Pt}, OnTable a b P →
    OnTable a b Q → P ≠ Q → ContinuesPath a b P Q segs → TouchesConfocal a b lam P Q →
    ∀ s ∈ segs, OnTable a b s.1 ∧ OnTable a b s.2 ∧ s.1 ≠ s.2 ∧ TouchesConfocal a b lam s.1 s.2 := by
  intro segs
  induction segs with
  | nil => intro P Q _ _ _ _ _ s hs; simp at hs
  | cons s segs ih =>
    intro P Q hP hQ hPQ h hl x hx
    obtain ⟨R, hR, hRQ, hs, hb', hrest⟩ := h
    have h1 := caustic_bounce ha hb hP hQ hR hPQ hb' hl
    rcases List.mem_cons.1 hx with rfl | hx
    · rcases hs with rfl | rfl
      · exact ⟨hQ, hR, hRQ.symm, h1⟩
      · refine ⟨hR, hQ, hRQ, ?_⟩
        unfold TouchesConfocal cross at h1 ⊢
        linear_combination h1
    · exact ih hQ hR hRQ.symm hrest h1 x hx

/-! ### C94 -/

/-- C94: whatever the number of segments, if `trajectory` returns, its segments are the consecutive chords of a billiard
path in the ellipse: the first is the chord of the starting line, each chord starts where the previous one ended, and the
law of reflection holds at every bounce. -/
theorem C94_trajectory (e : Ellipse) (he : e.Valid) (hc : e.center = ⟨0, 0⟩) (ha : e.alpha = 0) (k : ℕ) (P0 v0 : Pt)
    (segs : List Line) (h : Billiard.trajectory e k P0 v0 = .ok segs) :
    segs.length = k + 1 ∧ ∃ (V0 V1 : Pt) (seg : Line) (rest : List Line), segs = seg :: rest ∧ seg.A = V0 ∧ seg.B = V1 ∧
      V0 ≠ V1 ∧ OnTable e.rmajor e.rminor V0 ∧ OnTable e.rmajor e.rminor V1 ∧
      OnLine P0 (P0 + v0) V0 ∧ OnLine P0 (P0 + v0) V1 ∧
      ContinuesPath e.rmajor e.rminor V0 V1 (rest.map fun s => (s.A, s.B)) := by
  unfold Billiard.trajectory at h
  obtain ⟨l, hl, h⟩ := Res.bind_ok.1 h
  obtain ⟨hnc, rfl⟩ := mkLine_ok.1 hl
  obtain ⟨r, hr, h⟩ := Res.bind_ok.1 h
  cases r with
  | none => simp at h
  | one I => simp at h
  | two I J =>
    simp only at h
    obtain ⟨l', hl', h⟩ := Res.bind_ok.1 h
    obtain ⟨-, rfl⟩ := mkLine_ok.1 hl'
    obtain ⟨rest, hrest, h⟩ := Res.bind_ok.1 h
    obtain ⟨h1, h2⟩ := C70_two (.ell e) he ⟨P0, P0 + v0, true, true⟩ hnc I J hr
    simp only [onTable_iff he hc ha] at h2
    rw [← Except.ok.inj h]
    obtain ⟨i1, i2⟩ := (h2 I).2 (Or.inl rfl)
    obtain ⟨j1, j2⟩ := (h2 J).2 (Or.inr rfl)
    have hP0 : OnLine I J P0 := by
      have hne := ne_of_not_allclose hnc
      rw [onLine_iff_cross h1]
      rw [onLine_iff_cross hne] at i1 j1
      unfold cross at i1 j1 ⊢
      simp only [Pt.sub_x, Pt.sub_y, Pt.add_x, Pt.add_y, add_sub_cancel_left] at i1 j1 ⊢
      have hv : v0.x ≠ 0 ∨ v0.y ≠ 0 := by
        by_contra hcon
        push Not at hcon
        exact hne (by ext <;> simp [hcon.1, hcon.2])
      rcases hv with hv | hv
      · apply mul_left_cancel₀ hv
        linear_combination (I.x - P0.x) * j1 - (J.x - P0.x) * i1
      · apply mul_left_cancel₀ hv
        linear_combination (I.y - P0.y) * j1 - (J.y - P0.y) * i1
    obtain ⟨e1, e2⟩ := steps_spec he hc ha k i2 j2 h1 hP0 hrest
    exact ⟨by simp [e1], I, J, _, rest, rfl, rfl, rfl, h1, i2, j2, i1, j1, e2⟩

/-- C94: all the segments touch one conic with the same foci as the ellipse. -/
theorem C94_caustic (e : Ellipse) (he : e.Valid) (hc : e.center = ⟨0, 0⟩) (ha : e.alpha = 0) (k : ℕ) (P0 v0 : Pt)
    (segs : List Line) (h : Billiard.trajectory e k P0 v0 = .ok segs) :
    ∃ lam : ℝ, 0 < lam ∧ ∀ s ∈ segs, OnTable e.rmajor e.rminor s.A ∧ OnTable e.rmajor e.rminor s.B ∧ s.A ≠ s.B ∧
      TouchesConfocal e.rmajor e.rminor lam s.A s.B := by
  obtain ⟨-, V0, V1, seg, rest, rfl, rfl, rfl, hne, h0, h1, -, -, hp⟩ := C94_trajectory e he hc ha k P0 v0 segs h
  have hD := sqDist_pos hne
  obtain ⟨a1, b1⟩ := he
  obtain ⟨lam, hlam⟩ : ∃ lam, lam = (e.rmajor ^ 2 * (seg.A.y - seg.B.y) ^ 2 + e.rminor ^ 2 * (seg.B.x - seg.A.x) ^ 2 -
    cross seg.A seg.B ^ 2) / sqDist seg.A seg.B := ⟨_, rfl⟩
  have hl : TouchesConfocal e.rmajor e.rminor lam seg.A seg.B := by
    rw [eq_div_iff hD.ne'] at hlam
    unfold TouchesConfocal
    unfold sqDist at hlam
    linear_combination -hlam
  have hg := gradient_chord a1 b1 h1 h0 hne
  refine ⟨lam, ?_, ?_⟩
  · rw [hlam]
    apply div_pos _ hD
    have hQ' : seg.B.x ^ 2 * e.rminor ^ 2 + seg.B.y ^ 2 * e.rmajor ^ 2 = e.rmajor ^ 2 * e.rminor ^ 2 := by
      unfold OnTable at h1
      field_simp at h1
      linear_combination h1
    have : e.rmajor ^ 2 * (seg.A.y - seg.B.y) ^ 2 + e.rminor ^ 2 * (seg.B.x - seg.A.x) ^ 2 - cross seg.A seg.B ^ 2 =
        e.rmajor ^ 2 * e.rminor ^ 2 * dot (gradient e.rmajor e.rminor seg.B) (seg.A - seg.B) ^ 2 := by
      unfold cross dot gradient
      simp only [Pt.sub_x, Pt.sub_y]
      field_simp
      linear_combination (-(e.rminor ^ 2 * (seg.B.x - seg.A.x) ^ 2 + e.rmajor ^ 2 * (seg.B.y - seg.A.y) ^ 2)) * hQ'
    rw [this]
    have := hg.ne
    positivity
  · intro s hs
    rcases List.mem_cons.1 hs with rfl | hs
    · exact ⟨h0, h1, hne, hl⟩
    · exact caustic_path a1 b1 _ h0 h1 hne hp hl (s.A, s.B) (List.mem_map.2 ⟨s, hs, rfl⟩)

/-! ### Concrete cases -/

/-- The ellipse of the example script. -/
private noncomputable def table : Ellipse := ⟨⟨0, 0⟩, 6, 3, 0, true⟩

private theorem table_valid : table.Valid := ⟨by norm_num [table], by norm_num [table]⟩

private theorem table_map (P : Pt) : (Affine.ofEllipse (.ell table)).transform P = ⟨6 * P.x, 3 * P.y⟩ := by
  unfold Affine.transform Affine.ofEllipse table
  ext <;> simp

private theorem axis_hit (y0 y1 : ℝ) (h : 1 ≤ |y0 - y1|) (h1 : |y1| ≤ 10) :
    intersection_ellipse_line (.ell table) ⟨⟨0, y0⟩, ⟨0, y1⟩, true, true⟩ = .ok (.two ⟨0, 3⟩ ⟨0, -3⟩) := by
  rcases iel_cases table table_valid ⟨⟨0, y0⟩, ⟨0, y1⟩, true, true⟩ with ⟨m, -, PA, PB, ⟨-, hcl⟩, hA, hB⟩ | ⟨l2, -, ⟨hA, hB⟩, -, hcase⟩
  · exfalso
    rw [table_map] at hA hB
    have a2 : 3 * PA.y = y0 := congrArg Pt.y hA
    have b2 : 3 * PB.y = y1 := congrArg Pt.y hB
    unfold npClose at hcl
    rw [← a2, ← b2, ← mul_sub, abs_mul, abs_of_pos (by norm_num : (0 : ℝ) < 3)] at h
    rw [← b2, abs_mul, abs_of_pos (by norm_num : (0 : ℝ) < 3)] at h1
    linarith
  · rw [table_map] at hA hB
    have a1 : 6 * l2.A.x = 0 := congrArg Pt.x hA
    have a2 : 3 * l2.A.y = y0 := congrArg Pt.y hA
    have b1 : 6 * l2.B.x = 0 := congrArg Pt.x hB
    have b2 : 3 * l2.B.y = y1 := congrArg Pt.y hB
    have hdy : l2.B.y - l2.A.y ≠ 0 := by
      intro h0
      rw [← a2, ← b2, ← mul_sub, abs_mul, abs_of_pos (by norm_num : (0 : ℝ) < 3), show l2.A.y - l2.B.y = 0 by linarith] at h
      norm_num at h
    obtain ⟨d, hd⟩ : ∃ d, d = l2.B.y - l2.A.y := ⟨_, rfl⟩
    rw [← hd] at hdy
    have hd3 : 1 / 9 ≤ d * d := by
      have : 1 ≤ |y0 - y1| * |y0 - y1| := by nlinarith
      rw [abs_mul_abs_self, ← a2, ← b2] at this
      rw [hd]; nlinarith
    have hI : intersection_circle_line ⟨⟨0, 0⟩, 1⟩ l2 = .two ⟨0, 1⟩ ⟨0, -1⟩ := by
      unfold intersection_circle_line circle_line_intersection_ det2x2_
      have x1 : l2.A.x = 0 := by linarith
      have x2 : l2.B.x = 0 := by linarith
      simp only [Pt.sub_x, Pt.sub_y, x1, x2, sub_zero, zero_mul, zero_add, mul_zero, one_mul, ← hd, sub_self]
      have hs : sepsilon_ < 1 / 9 := by unfold sepsilon_; norm_num
      rw [if_neg (by linarith), if_neg (by linarith)]
      simp only [Pt.div_x, Pt.div_y]
      have h1 : √(d * d) = |d| := Real.sqrt_mul_self_eq_abs d
      rw [h1]
      have h2 : |d| * |d| = d * d := abs_mul_abs_self d
      have h3 : d * d ≠ 0 := by positivity
      congr 1 <;> ext <;> simp [h2, neg_div, div_self h3]
    rcases hcase with ⟨h2, -⟩ | ⟨I, h2, -⟩ | ⟨I, J, h2, h3⟩
    · rw [hI] at h2; simp at h2
    · rw [hI] at h2; simp at h2
    · rw [hI] at h2
      simp only [PtRes.two.injEq] at h2
      obtain ⟨rfl, rfl⟩ := h2
      rw [h3, table_map, table_map]
      norm_num

private theorem axis_step (p q : ℝ) (hq : q = 3 ∨ q = -3) (hpq : 1 ≤ |q - p|) (hp : |p| ≤ 10) :
    Billiard.step table ⟨0, p⟩ ⟨0, q⟩ = .ok (⟨⟨0, 3⟩, ⟨0, -3⟩, true, true⟩, ⟨0, q⟩, ⟨0, -q⟩) := by
  have hq0 : q ≠ 0 := by rcases hq with rfl | rfl <;> norm_num
  have hs : sin (atan2 q 0) ≠ 0 := by
    rw [sin_atan2]
    apply div_ne_zero hq0
    apply (Real.sqrt_pos.2 _).ne'
    nlinarith [mul_self_pos.2 hq0]
  have hsu : sin (pyMod (atan2 q 0) (2 * π)) ≠ 0 := by
    have : pyMod (atan2 q 0) (2 * π) = atan2 q 0 + ((-⌊atan2 q 0 / (2 * π)⌋ : ℤ) : ℝ) * (2 * π) := by
      unfold pyMod; push_cast; ring
    rw [this, sin_add_int_mul_two_pi]; exact hs
  obtain ⟨t, ht⟩ : ∃ t, table.theta2t (atan2 q 0) false = .ok t := by
    unfold Ellipse.theta2t
    simp only [Bool.false_eq_true, if_false]
    rw [if_neg hsu]
    exact ⟨_, rfl⟩
  obtain ⟨n, hn, -⟩ := C68_normal table table_valid t
  obtain ⟨u1, m, hm⟩ := loop_normal table_valid rfl (Q := ⟨0, q⟩) (by intro h; exact hq0 (congrArg Pt.y h)) ht hn
  have nx : n.x = 0 := by rw [hm]; simp [gradient]
  have ny : n.y ^ 2 = 1 := by rw [nx] at u1; linarith
  have hv : Billiard.reflect ((⟨0, q⟩ : Pt) - ⟨0, p⟩) n = ⟨0, p - q⟩ := by
    unfold Billiard.reflect dot_
    ext
    · simp [nx]
    · simp only [Pt.sub_y, Pt.smul_y, Pt.sub_x, nx]
      linear_combination -2 * (q - p) * ny
  have hl : (⟨0, q⟩ : Pt) + ⟨0, p - q⟩ = ⟨0, p⟩ := by ext <;> simp
  have hnc : ¬ allclose ⟨0, q⟩ ⟨0, p⟩ := by
    rintro ⟨-, h⟩
    unfold npClose at h
    simp only at h
    linarith
  have hnc2 : ¬ allclose ⟨0, 3⟩ ⟨0, -3⟩ := by
    rintro ⟨-, h⟩
    unfold npClose at h
    norm_num [abs_of_pos] at h
  have hnc3 : ¬ allclose ⟨0, -3⟩ ⟨0, 3⟩ := by
    rintro ⟨-, h⟩
    unfold npClose at h
    norm_num [abs_of_pos] at h
  unfold Billiard.step
  simp only [ht, Res.ok_bind, hn, hv, hl]
  rw [mkLine_ok.2 ⟨hnc, rfl⟩]
  simp only [Res.ok_bind, axis_hit q p hpq hp]
  rw [mkLine_ok.2 ⟨hnc2, rfl⟩]
  simp only [Res.ok_bind]
  rcases hq with rfl | rfl
  · rw [if_pos (allclose_refl _)]; rfl
  · rw [if_neg hnc3, neg_neg]; rfl

private theorem axis_steps : ∀ (k : ℕ) (q : ℝ), (q = 3 ∨ q = -3) →
    ∃ segs, Billiard.steps table k ⟨0, -q⟩ ⟨0, q⟩ = .ok segs := by
  intro k
  induction k with
  | zero => intro q _; exact ⟨_, rfl⟩
  | succ k ih =>
    intro q hq
    obtain ⟨segs, h⟩ := ih (-q) (by rcases hq with rfl | rfl <;> norm_num)
    rw [neg_neg] at h
    unfold Billiard.steps
    rw [axis_step (-q) q hq (by rcases hq with rfl | rfl <;> norm_num [abs_of_pos]) (by rcases hq with rfl | rfl <;> norm_num [abs_of_pos])]
    simp only [Res.ok_bind, h]
    exact ⟨_, rfl⟩

/-- The hypotheses are met for every length: the ball thrown from the center along the minor axis of the ellipse of the
script goes back and forth forever. -/
example (k : ℕ) : ∃ segs, Billiard.trajectory table k ⟨0, 0⟩ ⟨0, 1⟩ = .ok segs := by
  have hl : (⟨0, 0⟩ : Pt) + ⟨0, 1⟩ = ⟨0, 1⟩ := by ext <;> simp
  have hnc : ¬ allclose ⟨0, 0⟩ ⟨0, 1⟩ := by
    rintro ⟨-, h⟩
    unfold npClose at h
    norm_num [abs_of_pos] at h
  have hnc2 : ¬ allclose ⟨0, 3⟩ ⟨0, -3⟩ := by
    rintro ⟨-, h⟩
    unfold npClose at h
    norm_num [abs_of_pos] at h
  have hs : ∃ segs, Billiard.steps table k ⟨0, 0⟩ ⟨0, -3⟩ = .ok segs := by
    cases k with
    | zero => exact ⟨_, rfl⟩
    | succ k =>
      obtain ⟨segs, h⟩ := axis_steps k 3 (Or.inl rfl)
      unfold Billiard.steps
      rw [axis_step 0 (-3) (Or.inr rfl) (by norm_num [abs_of_pos]) (by norm_num)]
      simp only [Res.ok_bind, neg_neg, h]
      exact ⟨_, rfl⟩
  obtain ⟨segs, hs⟩ := hs
  unfold Billiard.trajectory
  rw [hl, mkLine_ok.2 ⟨hnc, rfl⟩]
  simp only [Res.ok_bind, axis_hit 0 1 (by norm_num) (by norm_num)]
  rw [mkLine_ok.2 ⟨hnc2, rfl⟩]
  simp only [Res.ok_bind, hs]
  exact ⟨_, rfl⟩

/-- C94, a limit: thrown from the lower end of its first chord the ball does not bounce, `trajectory` raises as soon as a
second segment is asked for. -/
theorem C94_lower_start_counterexample (k : ℕ) :
    ∃ m, Billiard.trajectory ⟨⟨0, 0⟩, 6, 3, 0, true⟩ (k + 1) ⟨0, -3⟩ ⟨0, 1⟩ = .error (.valueError m) := by
  show ∃ m, Billiard.trajectory table (k + 1) ⟨0, -3⟩ ⟨0, 1⟩ = .error (.valueError m)
  have hl : (⟨0, -3⟩ : Pt) + ⟨0, 1⟩ = ⟨0, -2⟩ := by ext <;> norm_num
  have hnc : ¬ allclose ⟨0, -3⟩ ⟨0, -2⟩ := by
    rintro ⟨-, h⟩
    unfold npClose at h
    norm_num [abs_of_pos] at h
  have hnc2 : ¬ allclose ⟨0, 3⟩ ⟨0, -3⟩ := by
    rintro ⟨-, h⟩
    unfold npClose at h
    norm_num [abs_of_pos] at h
  have hs : sin (atan2 (-3) 0) ≠ 0 := by
    rw [sin_atan2]
    apply div_ne_zero (by norm_num)
    apply (Real.sqrt_pos.2 _).ne'
    norm_num
  have hsu : sin (pyMod (atan2 (-3) 0) (2 * π)) ≠ 0 := by
    have : pyMod (atan2 (-3) 0) (2 * π) = atan2 (-3) 0 + ((-⌊atan2 (-3) 0 / (2 * π)⌋ : ℤ) : ℝ) * (2 * π) := by
      unfold pyMod; push_cast; ring
    rw [this, sin_add_int_mul_two_pi]; exact hs
  obtain ⟨t, ht⟩ : ∃ t, table.theta2t (atan2 (-3) 0) false = .ok t := by
    unfold Ellipse.theta2t
    simp only [Bool.false_eq_true, if_false]
    rw [if_neg hsu]
    exact ⟨_, rfl⟩
  obtain ⟨n, hn, -⟩ := C68_normal table table_valid t
  have hv : (⟨0, -3⟩ : Pt) + Billiard.reflect ((⟨0, -3⟩ : Pt) - ⟨0, -3⟩) n = ⟨0, -3⟩ := by
    unfold Billiard.reflect dot_
    ext <;> simp
  unfold Billiard.trajectory
  rw [hl, mkLine_ok.2 ⟨hnc, rfl⟩]
  simp only [Res.ok_bind, axis_hit (-3) (-2) (by norm_num) (by norm_num [abs_of_pos])]
  rw [mkLine_ok.2 ⟨hnc2, rfl⟩]
  simp only [Res.ok_bind]
  unfold Billiard.steps Billiard.step
  simp only [ht, Res.ok_bind, hn, hv]
  unfold mkLine
  rw [if_pos (allclose_refl _)]
  exact ⟨_, rfl⟩
