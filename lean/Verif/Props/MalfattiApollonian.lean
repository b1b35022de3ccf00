import Verif.Lemmas.Soddy
import Verif.Lemmas.SoddyUnit
import Verif.Props.Malfatti

/-! C106: the gasket of the Malfatti circles. -/

open Spec Real Classical MalfattiApollonian GV

/-- C106: what `soddyOuterCircle` returns for the triangle of the centers of three mutually tangent circles.  Let
`k = 1/r₁ + 1/r₂ + 1/r₃ - 2 √(1/(r₁r₂) + 1/(r₂r₃) + 1/(r₃r₁))`.  If `k < 0` the circle found has radius `- 1/k` and the three circles touch it from
inside; if `k > 0` it has radius `1/k` and touches the three circles from outside, so it does not enclose them; if `k = 0` there is a division by
zero. -/
theorem C106_outer (A B C : Pt) (r1 r2 r3 k : ℝ) (h1 : 0 < r1) (h2 : 0 < r2) (h3 : 0 < r3) (hAB : ExtTangent A r1 B r2) (hAC : ExtTangent A r1 C r3)
    (hBC : ExtTangent B r2 C r3) (hk : k = 1 / r1 + 1 / r2 + 1 / r3 - 2 * √(1 / (r1 * r2) + 1 / (r2 * r3) + 1 / (r3 * r1))) :
    (k < 0 → ∃ c, soddyOuterCircle ⟨A, B, C⟩ = .ok c ∧ c.radius = -(1 / k) ∧ r1 < c.radius ∧ r2 < c.radius ∧ r3 < c.radius ∧
      IntTangent c.center c.radius A r1 ∧ IntTangent c.center c.radius B r2 ∧ IntTangent c.center c.radius C r3) ∧
    (0 < k → ∃ c, soddyOuterCircle ⟨A, B, C⟩ = .ok c ∧ c.radius = 1 / k ∧
      ExtTangent c.center c.radius A r1 ∧ ExtTangent c.center c.radius B r2 ∧ ExtTangent c.center c.radius C r3) ∧
    (k = 0 → soddyOuterCircle ⟨A, B, C⟩ = .error .nonFinite) := by
  have ab := (dist_eq_iff (by positivity)).1 hAB
  have ac := (dist_eq_iff (by positivity)).1 hAC
  have bc := (dist_eq_iff (by positivity)).1 hBC
  have ba : sqDist B A = (r2 + r1) ^ 2 := by rw [sqDist_comm, ab]; ring
  have ca : sqDist C A = (r3 + r1) ^ 2 := by rw [sqDist_comm, ac]; ring
  have cb : sqDist C B = (r3 + r2) ^ 2 := by rw [sqDist_comm, bc]; ring
  obtain ⟨Δ, hΔ, eΔ, hΔ2, hz, hnz⟩ := soddy_run h1 h2 h3 ab ac bc
  have hkN : k * (r1 * r2 * r3) = r1 * r2 + r2 * r3 + r3 * r1 - 2 * Δ := by
    have e : √(1 / (r1 * r2) + 1 / (r2 * r3) + 1 / (r3 * r1)) = Δ / (r1 * r2 * r3) := by
      rw [show 1 / (r1 * r2) + 1 / (r2 * r3) + 1 / (r3 * r1) = (Δ / (r1 * r2 * r3)) ^ 2 by rw [div_pow, hΔ2]; field_simp; ring]
      exact Real.sqrt_sq (by positivity)
    rw [hk, e]; field_simp; ring
  have he3 : 0 < r1 * r2 * r3 := by positivity
  have hrad : k ≠ 0 → r1 * r2 * r3 / (r1 * r2 + r2 * r3 + r3 * r1 - 2 * Δ) = 1 / k := by
    intro hk0
    rw [← hkN]
    field_simp
  have tang : k ≠ 0 → ∃ c, soddyOuterCircle ⟨A, B, C⟩ = .ok c ∧ c.radius = |1 / k| ∧ sqDist c.center A = (1 / k + r1) ^ 2 ∧
      sqDist c.center B = (1 / k + r2) ^ 2 ∧ sqDist c.center C = (1 / k + r3) ^ 2 := by
    intro hk0
    have hN : r1 * r2 + r2 * r3 + r3 * r1 - 2 * Δ ≠ 0 := by rw [← hkN]; exact mul_ne_zero hk0 he3.ne'
    have hN2 : r2 * r1 + r1 * r3 + r3 * r2 - 2 * Δ ≠ 0 := fun h => hN (by linarith)
    have hN3 : r3 * r1 + r1 * r2 + r2 * r3 - 2 * Δ ≠ 0 := fun h => hN (by linarith)
    refine ⟨_, hnz hN, by rw [hrad hk0], ?_, ?_, ?_⟩
    · have := (soddy_tangent h1 h2 h3 hΔ hΔ2 hN ab ac bc).2
      rw [hrad hk0] at this
      exact this
    · have := (soddy_tangent (A := B) (B := A) (C := C) h2 h1 h3 hΔ (by rw [hΔ2]; ring) hN2 ba bc ac).2
      rw [show r2 * r1 * r3 / (r2 * r1 + r1 * r3 + r3 * r2 - 2 * Δ) = r1 * r2 * r3 / (r1 * r2 + r2 * r3 + r3 * r1 - 2 * Δ) by congr 1 <;> ring,
        hrad hk0] at this
      rw [← this]
      congr 1
      ext <;> simp only [Pt.div_x, Pt.div_y, Pt.add_x, Pt.add_y, Pt.smul_x, Pt.smul_y] <;> ring
    · have := (soddy_tangent (A := C) (B := A) (C := B) h3 h1 h2 hΔ (by rw [hΔ2]; ring) hN3 ca cb ab).2
      rw [show r3 * r1 * r2 / (r3 * r1 + r1 * r2 + r2 * r3 - 2 * Δ) = r1 * r2 * r3 / (r1 * r2 + r2 * r3 + r3 * r1 - 2 * Δ) by congr 1 <;> ring,
        hrad hk0] at this
      rw [← this]
      congr 1
      ext <;> simp only [Pt.div_x, Pt.div_y, Pt.add_x, Pt.add_y, Pt.smul_x, Pt.smul_y] <;> ring
  refine ⟨?_, ?_, ?_⟩
  · intro hneg
    obtain ⟨c, e, hr, tA, tB, tC⟩ := tang hneg.ne
    have hneg' : 1 / k < 0 := one_div_neg.2 hneg
    rw [abs_of_neg hneg'] at hr
    have hN : r1 * r2 + r2 * r3 + r3 * r1 - 2 * Δ < 0 := by rw [← hkN]; exact mul_neg_of_neg_of_pos hneg he3
    have l1 := soddy_large h1 h2 h3 hΔ hΔ2 hN
    have l2 := soddy_large h2 h3 h1 hΔ (by rw [hΔ2]; ring) (by linarith)
    have l3 := soddy_large h3 h1 h2 hΔ (by rw [hΔ2]; ring) (by linarith)
    rw [show r2 * r3 * r1 / (r2 * r3 + r3 * r1 + r1 * r2 - 2 * Δ) = r1 * r2 * r3 / (r1 * r2 + r2 * r3 + r3 * r1 - 2 * Δ) by congr 1 <;> ring] at l2
    rw [show r3 * r1 * r2 / (r3 * r1 + r1 * r2 + r2 * r3 - 2 * Δ) = r1 * r2 * r3 / (r1 * r2 + r2 * r3 + r3 * r1 - 2 * Δ) by congr 1 <;> ring] at l3
    rw [hrad hneg.ne, ← hr] at l1 l2 l3
    refine ⟨c, e, hr, l1, l2, l3, ?_, ?_, ?_⟩
    · exact (dist_eq_iff (by linarith)).2 (by rw [tA, hr]; ring)
    · exact (dist_eq_iff (by linarith)).2 (by rw [tB, hr]; ring)
    · exact (dist_eq_iff (by linarith)).2 (by rw [tC, hr]; ring)
  · intro hpos
    obtain ⟨c, e, hr, tA, tB, tC⟩ := tang hpos.ne'
    have hpos' : 0 < 1 / k := one_div_pos.2 hpos
    rw [abs_of_pos hpos'] at hr
    refine ⟨c, e, hr, ?_, ?_, ?_⟩
    · exact (dist_eq_iff (by linarith)).2 (by rw [tA, hr])
    · exact (dist_eq_iff (by linarith)).2 (by rw [tB, hr])
    · exact (dist_eq_iff (by linarith)).2 (by rw [tC, hr])
  · intro h0
    exact hz (by rw [← hkN, h0, zero_mul])

/-- The radii of the Malfatti circles: the product of two of them is never too large. -/
theorem malfatti_descartes {T : Triangle} {m : Triangle.Malfatti} {x y z r p q t : ℝ} {I : Pt} (h : MalfattiData T m x y z r p q t I)
    (h1 : 0 < m.cA.radius) (h2 : 0 < m.cB.radius) (h3 : 0 < m.cC.radius) :
    1 / m.cA.radius + 1 / m.cB.radius + 1 / m.cC.radius -
      2 * √(1 / (m.cA.radius * m.cB.radius) + 1 / (m.cB.radius * m.cC.radius) + 1 / (m.cC.radius * m.cA.radius)) < 0 := by
  obtain ⟨a, ea⟩ : ∃ a, a = m.cA.radius := ⟨_, rfl⟩
  obtain ⟨b, eb⟩ : ∃ b, b = m.cB.radius := ⟨_, rfl⟩
  obtain ⟨c, ec⟩ : ∃ c, c = m.cC.radius := ⟨_, rfl⟩
  have s12 := h.s12
  have s23 := h.s23
  have s31 := h.s31
  rw [← ea] at h1 s12 s31
  rw [← eb] at h2 s12 s23
  rw [← ec] at h3 s23 s31
  rw [← ea, ← eb, ← ec]
  obtain ⟨X, hX⟩ : ∃ X, X = √(b * c) := ⟨_, rfl⟩
  obtain ⟨Y, hY⟩ : ∃ Y, Y = √(c * a) := ⟨_, rfl⟩
  obtain ⟨Z, hZ⟩ : ∃ Z, Z = √(a * b) := ⟨_, rfl⟩
  have hX0 : 0 < X := by rw [hX]; positivity
  have hY0 : 0 < Y := by rw [hY]; positivity
  have hZ0 : 0 < Z := by rw [hZ]; positivity
  have hX2 : X ^ 2 = b * c := by rw [hX]; exact Real.sq_sqrt (by positivity)
  have hY2 : Y ^ 2 = c * a := by rw [hY]; exact Real.sq_sqrt (by positivity)
  have hZ2 : Z ^ 2 = a * b := by rw [hZ]; exact Real.sq_sqrt (by positivity)
  rw [← hX] at s23
  rw [← hY] at s31
  rw [← hZ] at s12
  have hr := h.hr
  have hx := h.hx
  have hy := h.hy
  have hz := h.hz
  have lp : p < r + x := by
    apply lt_of_pow_lt_pow_left₀ 2 (by positivity); rw [h.p2]; nlinarith
  have lq : q < r + y := by
    apply lt_of_pow_lt_pow_left₀ 2 (by positivity); rw [h.q2]; nlinarith
  have lt : t < r + z := by
    apply lt_of_pow_lt_pow_left₀ 2 (by positivity); rw [h.t2]; nlinarith
  have gp : x < p := by
    apply lt_of_pow_lt_pow_left₀ 2 h.hp.le; rw [h.p2]; nlinarith
  have gq : y < q := by
    apply lt_of_pow_lt_pow_left₀ 2 h.hq.le; rw [h.q2]; nlinarith
  have gt : z < t := by
    apply lt_of_pow_lt_pow_left₀ 2 h.ht.le; rw [h.t2]; nlinarith
  have i1 : 0 < Y + Z - X := by linarith
  have i2 : 0 < Z + X - Y := by linarith
  have i3 : 0 < X + Y - Z := by linarith
  have key : (1 / a + 1 / b + 1 / c) ^ 2 < 4 * (1 / (a * b) + 1 / (b * c) + 1 / (c * a)) := by
    have e1 : 1 / a + 1 / b + 1 / c = (X ^ 2 + Y ^ 2 + Z ^ 2) / (a * b * c) := by rw [hX2, hY2, hZ2]; field_simp
    have e2 : 1 / (a * b) + 1 / (b * c) + 1 / (c * a) = (X ^ 2 * Y ^ 2 + Y ^ 2 * Z ^ 2 + Z ^ 2 * X ^ 2) / (a * b * c) ^ 2 := by
      rw [hX2, hY2, hZ2]; field_simp
    rw [e1, e2, div_pow, mul_div_assoc', div_lt_div_iff_of_pos_right (by positivity)]
    have := mul_pos (mul_pos (show 0 < X + Y + Z by linarith) i1) (mul_pos i2 i3)
    nlinarith
  have hlt : 1 / a + 1 / b + 1 / c < 2 * √(1 / (a * b) + 1 / (b * c) + 1 / (c * a)) := by
    apply lt_of_pow_lt_pow_left₀ 2 (by positivity)
    rw [mul_pow, Real.sq_sqrt (by positivity)]
    linarith
  linarith

/-- C106: for every non-flat triangle the circle found by the script for the Malfatti circles encloses them and touches them. -/
theorem C106_malfatti (T : Triangle) (h : ¬ Collinear T.A T.B T.C) :
    ∃ m O, T.malfatti_circles = .ok (some m) ∧ soddyOuterCircle ⟨m.cA.center, m.cB.center, m.cC.center⟩ = .ok O ∧ Soddy m.cA m.cB m.cC O := by
  obtain ⟨m, hm, cfg, x, y, z, r, p, q, t, I, dat⟩ := malfatti_full T h
  have hk := malfatti_descartes dat cfg.posA cfg.posB cfg.posC
  obtain ⟨c, e, -, l1, l2, l3, tA, tB, tC⟩ := (C106_outer _ _ _ _ _ _ _ cfg.posA cfg.posB cfg.posC cfg.tAB cfg.tAC cfg.tBC rfl).1 hk
  have pA := cfg.posA
  have pB := cfg.posB
  have pC := cfg.posC
  refine ⟨m, c, hm, e, pA, pB, pC, by linarith, (dist_eq_iff (by positivity)).1 cfg.tAB, (dist_eq_iff (by positivity)).1 cfg.tAC,
    (dist_eq_iff (by positivity)).1 cfg.tBC, ?_, ?_, ?_, l1, l2, l3⟩
  · rw [sqDist_comm]; exact (dist_eq_iff (by linarith)).1 tA
  · rw [sqDist_comm]; exact (dist_eq_iff (by linarith)).1 tB
  · rw [sqDist_comm]; exact (dist_eq_iff (by linarith)).1 tC

/-- The regions of the gasket up to level `d`. -/
def Spec.MalfattiRegions (m : Triangle.Malfatti) (O : Circle) (st : Start) (d : ℕ) : Set Region :=
  {A | A ∈ ({disc m.cA, disc m.cB, disc m.cC, outside O} : Set Region) ∨
    ∃ e ≤ d, ∃ L : List (Circle × ℕ), gasket st.inversions st.circles0 e = .ok (L.map pairG) ∧ ∃ p ∈ L, A = disc p.1}

theorem centered_ok {g g' : GCircle} : centered g = .ok g' ↔ ∃ c, g = .circle c ∧ g' = .circle c := by
  cases g with
  | circle c =>
    constructor
    · intro h; cases h; exact ⟨c, rfl, rfl⟩
    · rintro ⟨c', h, rfl⟩; cases h; rfl
  | line l =>
    constructor
    · intro h; cases h
    · rintro ⟨c', h, -⟩; cases h

/-- What `drawGasket` has at hand when it gets to `gasket`. -/
theorem drawGasket_ok {T : Triangle} {m : Triangle.Malfatti} {O : Circle} (hm : T.malfatti_circles = .ok (some m))
    (hO : soddyOuterCircle ⟨m.cA.center, m.cB.center, m.cC.center⟩ = .ok O) {st : Start} :
    drawGasket T = .ok st ↔ ∃ i0 i1 i2 i3 g0 g1 g2 g3, Inversion.from_fixing_three_circles O m.cB m.cC = .ok i0 ∧
      Inversion.from_fixing_three_circles O m.cA m.cC = .ok i1 ∧ Inversion.from_fixing_three_circles O m.cA m.cB = .ok i2 ∧
      Inversion.from_fixing_three_circles m.cA m.cB m.cC = .ok i3 ∧ i0.invert_circle m.cA = .ok (.circle g0) ∧
      i1.invert_circle m.cB = .ok (.circle g1) ∧ i2.invert_circle m.cC = .ok (.circle g2) ∧ i3.invert_circle O = .ok (.circle g3) ∧
      st = ⟨[m.cA, m.cB, m.cC, O], [i0, i1, i2, i3], [(g0, 0), (g1, 1), (g2, 2), (g3, 3)].map pairG⟩ := by
  unfold drawGasket
  rw [hm, Res.ok_bind]
  dsimp only
  rw [hO, Res.ok_bind]
  simp only [Res.bind_ok, Res.pure_ok, centered_ok]
  constructor
  · rintro ⟨i0, f0, i1, f1, i2, f2, i3, f3, _, e0, _, ⟨g0, rfl, rfl⟩, _, e1, _, ⟨g1, rfl, rfl⟩, _, e2, _, ⟨g2, rfl, rfl⟩, _, e3, _, ⟨g3, rfl, rfl⟩, h⟩
    exact ⟨i0, i1, i2, i3, g0, g1, g2, g3, f0, f1, f2, f3, e0, e1, e2, e3, h.symm⟩
  · rintro ⟨i0, i1, i2, i3, g0, g1, g2, g3, f0, f1, f2, f3, e0, e1, e2, e3, h⟩
    exact ⟨i0, f0, i1, f1, i2, f2, i3, f3, _, e0, _, ⟨g0, rfl, rfl⟩, _, e1, _, ⟨g1, rfl, rfl⟩, _, e2, _, ⟨g2, rfl, rfl⟩, _, e3, _, ⟨g3, rfl, rfl⟩, h.symm⟩

/-- C106: the gasket of the Malfatti circles.  If the first lines of `drawGasket` do not raise, if the poles of the first three inversions are farther
than `2⁻¹³` from the outer circle and if the power of the fourth one is at least `2⁻²⁶`, then `gasket` never raises: level `d` has `4·3ᵈ` circles, they
do not overlap, they do not overlap the Malfatti circles nor the circles of the earlier levels, they are inside the outer circle, and each of them
touches at least three circles drawn before or with it.  Missing from the full claim (every non-flat triangle): see `C106_counterexample`. -/
theorem C106_packing_partial (T : Triangle) (h : ¬ Collinear T.A T.B T.C) (m : Triangle.Malfatti) (hm : T.malfatti_circles = .ok (some m)) (O : Circle)
    (hO : soddyOuterCircle ⟨m.cA.center, m.cB.center, m.cC.center⟩ = .ok O) (st : Start) (hst : drawGasket T = .ok st)
    (hout : ∀ iota ∈ st.inversions.take 3, O.radius + 1 / 2 ^ 13 ≤ Spec.dist iota.pole O.center)
    (hin : ∀ iota ∈ st.inversions.drop 3, 1 / 2 ^ 26 ≤ iota.power) (d : ℕ) :
    ∃ L : List (Circle × ℕ), gasket st.inversions st.circles0 d = .ok (L.map pairG) ∧ L.length = 4 * 3 ^ d ∧
      (∀ p ∈ L, 0 < p.1.radius ∧ (disc p.1).Apart (disc m.cA) ∧ (disc p.1).Apart (disc m.cB) ∧ (disc p.1).Apart (disc m.cC) ∧
        (disc p.1).Apart (outside O)) ∧
      L.Pairwise (fun p q => (disc p.1).Apart (disc q.1)) ∧
      (∀ e < d, ∀ L' : List (Circle × ℕ), gasket st.inversions st.circles0 e = .ok (L'.map pairG) →
        ∀ p ∈ L, ∀ q ∈ L', (disc p.1).Apart (disc q.1)) ∧
      ∀ p ∈ L, ∃ q : Fin 3 → Region, Function.Injective q ∧ ∀ i, q i ∈ MalfattiRegions m O st d ∧ (disc p.1).Touches (q i) := by
  obtain ⟨m', O', hm', hO', hs⟩ := C106_malfatti T h
  rw [hm] at hm'
  cases hm'
  rw [hO] at hO'
  cases hO'
  obtain ⟨i0, i1, i2, i3, g0, g1, g2, g3, f0, f1, f2, f3, e0, e1, e2, e3, rfl⟩ := (drawGasket_ok hm hO).1 hst
  obtain ⟨hmir, hinv, hC⟩ := start_gv hs f0 f1 f2 f3 e0 e1 e2 e3
  dsimp only at hout hin ⊢
  rw [hinv] at hout hin ⊢
  have hf : GasketFrame (Four.mirs (four m.cA m.cB m.cC O)) (Four.mirW (four m.cA m.cB m.cC O)) {disc m.cA, disc m.cB, disc m.cC, outside O}
      [(g0, 0), (g1, 1), (g2, 2), (g3, 3)] := by
    refine soddy_frame hs hmir ?_ ?_ (fun i => (hC i).1) (fun i => (hC i).2)
    · intro i hi
      apply hout
      fin_cases i
      · simp [Four.mirs]
      · simp [Four.mirs]
      · simp [Four.mirs]
      · exact absurd rfl hi
    · apply hin
      simp [Four.mirs]
  have hge := gasket_eq (mirrors := Four.mirs (four m.cA m.cB m.cC O)) (C := [(g0, 0), (g1, 1), (g2, 2), (g3, 3)])
    (fun d => by obtain ⟨L, e, -⟩ := hf.packing d; exact ⟨L, e⟩)
  simp only [hge]
  obtain ⟨L, e, hlen, hv, hp, hS, hearlier⟩ := hf.packing d
  refine ⟨L, e, hlen, ?_, hp, hearlier, ?_⟩
  · intro p hpL
    exact ⟨(hv p hpL).1, hS p hpL _ (by simp), hS p hpL _ (by simp), hS p hpL _ (by simp), hS p hpL _ (by simp)⟩
  · have ht := hf.touch 3 ?_ d L e
    · intro p hpL
      obtain ⟨q, hq, hq'⟩ := ht p hpL
      refine ⟨q, hq, fun i => ⟨?_, (hq' i).2⟩⟩
      rcases (hq' i).1 with h1 | ⟨e, he, L', hL', h1⟩
      · exact Or.inl h1
      · refine Or.inr ⟨e, he, L', ?_, h1⟩
        dsimp only
        rw [hge]
        exact hL'
    · have hmemS : ∀ k, region (four m.cA m.cB m.cC O k) ∈ ({disc m.cA, disc m.cB, disc m.cC, outside O} : Set Region) := by
        intro k
        fin_cases k
        · left; exact region_circ hs.v0
        · right; left; exact region_circ hs.v1
        · right; right; left; exact region_circ hs.v2
        · right; right; right; exact region_neg_circ hs.vO
      have key : ∀ i : Fin 4, ∃ q : Fin 3 → Region, Function.Injective q ∧ ∀ k, q k ∈ GasketRegions (Four.mirs (four m.cA m.cB m.cC O))
          {disc m.cA, disc m.cB, disc m.cC, outside O} [(g0, 0), (g1, 1), (g2, 2), (g3, 3)] 0 ∧ (disc (![g0, g1, g2, g3] i)).Touches (q k) := by
        intro i
        obtain ⟨f, hfi, hfn⟩ := three_others i
        refine ⟨fun k => region (four m.cA m.cB m.cC O (f k)), (four_injective hs).comp hfi, fun k => ⟨Or.inl (hmemS _), ?_⟩⟩
        rw [(hC i).2]
        exact new_touches hs hmir (hfn k)
      intro p hp
      simp only [List.mem_cons, List.not_mem_nil, or_false] at hp
      rcases hp with rfl | rfl | rfl | rfl
      exacts [key 0, key 1, key 2, key 3]

/-! ### The triangle that is drawn -/

/-- The point `P` after the translation and the scaling of the script. -/
noncomputable def Spec.scaled (c : Pt) (ρ : ℝ) (P : Pt) : Pt := (P - c) / ρ

theorem dist_scaled (c : Pt) {ρ : ℝ} (hρ : 0 < ρ) (P Q : Pt) : Spec.dist (scaled c ρ P) (scaled c ρ Q) = Spec.dist P Q / ρ := by
  unfold Spec.dist
  rw [show sqDist (scaled c ρ P) (scaled c ρ Q) = sqDist P Q / ρ ^ 2 by
    unfold sqDist scaled; simp only [Pt.div_x, Pt.div_y, Pt.sub_x, Pt.sub_y]; field_simp; ring,
    Real.sqrt_div (sqDist_nonneg _ _), Real.sqrt_sq hρ.le]

theorem sqDist_scaled (c : Pt) {ρ : ℝ} (hρ : 0 < ρ) (P Q : Pt) : sqDist (scaled c ρ P) (scaled c ρ Q) = sqDist P Q / ρ ^ 2 := by
  unfold sqDist scaled; simp only [Pt.div_x, Pt.div_y, Pt.sub_x, Pt.sub_y]; field_simp; ring

theorem pos_root_scaled {a b ρ : ℝ} (ha : 0 < a) (hb : 0 < b) (hρ : 0 < ρ) (h : a ^ 2 = b ^ 2 / ρ ^ 2) : a = b / ρ := by
  rw [← div_pow] at h
  exact (pow_left_inj₀ ha.le (by positivity) two_ne_zero).1 h

/-- The Malfatti circles follow the triangle. -/
theorem malfatti_scaled {T T' : Triangle} {c : Pt} {ρ : ℝ} (hρ : 0 < ρ) (hA : T'.A = scaled c ρ T.A) (hB : T'.B = scaled c ρ T.B)
    (hC : T'.C = scaled c ρ T.C) {m m' : Triangle.Malfatti} {x y z r p q t x' y' z' r' p' q' t' : ℝ} {I I' : Pt}
    (h : MalfattiData T m x y z r p q t I) (h' : MalfattiData T' m' x' y' z' r' p' q' t' I') :
    m'.cA = ⟨scaled c ρ m.cA.center, m.cA.radius / ρ⟩ ∧ m'.cB = ⟨scaled c ρ m.cB.center, m.cB.radius / ρ⟩ ∧
    m'.cC = ⟨scaled c ρ m.cC.center, m.cC.radius / ρ⟩ := by
  have ha := h'.ha
  have hb := h'.hb
  have hc := h'.hc
  rw [hB, hC, dist_scaled c hρ, h.ha] at ha
  rw [hA, hC, dist_scaled c hρ, h.hb] at hb
  rw [hA, hB, dist_scaled c hρ, h.hc] at hc
  rw [add_div] at ha hb hc
  have ex : x' = x / ρ := by linarith
  have ey : y' = y / ρ := by linarith
  have ez : z' = z / ρ := by linarith
  have hx := h.hx
  have hy := h.hy
  have hz := h.hz
  have hr := h.hr
  have er : r' = r / ρ := by
    apply pos_root_scaled h'.hr hr hρ
    have e1 := h.hrs
    have e2 := h'.hrs
    rw [ex, ey, ez] at e2
    have hs : x / ρ + y / ρ + z / ρ ≠ 0 := by positivity
    apply mul_right_cancel₀ hs
    rw [e2]
    field_simp
    linarith
  have ep : p' = p / ρ := by
    apply pos_root_scaled h'.hp h.hp hρ
    rw [h'.p2, h.p2, er, ex]; field_simp
  have eq : q' = q / ρ := by
    apply pos_root_scaled h'.hq h.hq hρ
    rw [h'.q2, h.q2, er, ey]; field_simp
  have et : t' = t / ρ := by
    apply pos_root_scaled h'.ht h.ht hρ
    rw [h'.t2, h.t2, er, ez]; field_simp
  have eI : I' = scaled c ρ I := by
    have hs : x + y + z ≠ 0 := by positivity
    rw [h'.hI, h.hI, hA, hB, hC, ex, ey, ez]
    unfold scaled
    ext
    · simp only [Pt.div_x, Pt.sub_x, Pt.add_x, Pt.smul_x]
      have e1 : y / ρ + z / ρ + (z / ρ + x / ρ) + (x / ρ + y / ρ) = 2 * (x + y + z) / ρ := by field_simp; ring
      have e2 : y + z + (z + x) + (x + y) = 2 * (x + y + z) := by ring
      rw [e1, e2]
      field_simp
      ring
    · simp only [Pt.div_y, Pt.sub_y, Pt.add_y, Pt.smul_y]
      have e1 : y / ρ + z / ρ + (z / ρ + x / ρ) + (x / ρ + y / ρ) = 2 * (x + y + z) / ρ := by field_simp; ring
      have e2 : y + z + (z + x) + (x + y) = 2 * (x + y + z) := by ring
      rw [e1, e2]
      field_simp
      ring
  have r1 : m'.cA.radius = m.cA.radius / ρ := by
    rw [h'.r1, h.r1, er, ex, ey, ez, ep, eq, et]; field_simp
  have r2 : m'.cB.radius = m.cB.radius / ρ := by
    rw [h'.r2, h.r2, er, ex, ey, ez, ep, eq, et]; field_simp
  have r3 : m'.cC.radius = m.cC.radius / ρ := by
    rw [h'.r3, h.r3, er, ex, ey, ez, ep, eq, et]; field_simp
  have cen : ∀ (V : Pt) (R : ℝ), scaled c ρ V + (R / ρ / (r / ρ)) • (scaled c ρ I - scaled c ρ V) = scaled c ρ (V + (R / r) • (I - V)) := by
    intro V R
    unfold scaled
    ext
    · simp only [Pt.div_x, Pt.sub_x, Pt.add_x, Pt.smul_x]; field_simp; ring
    · simp only [Pt.div_y, Pt.sub_y, Pt.add_y, Pt.smul_y]; field_simp; ring
  refine ⟨?_, ?_, ?_⟩
  · ext1
    · dsimp only; rw [h'.c1, h.c1, r1, er, eI, hA]; exact cen _ _
    · exact r1
  · ext1
    · dsimp only; rw [h'.c2, h.c2, r2, er, eI, hB]; exact cen _ _
    · exact r2
  · ext1
    · dsimp only; rw [h'.c3, h.c3, r3, er, eI, hC]; exact cen _ _
    · exact r3

/-- The outer circle follows the circles. -/
theorem soddy_scaled {A B C c : Pt} {ρ x y z : ℝ} (hρ : 0 < ρ) (hx : 0 < x) (hy : 0 < y) (hz : 0 < z) (ab : sqDist A B = (x + y) ^ 2)
    (ac : sqDist A C = (x + z) ^ 2) (bc : sqDist B C = (y + z) ^ 2) {O : Circle} (h : soddyOuterCircle ⟨A, B, C⟩ = .ok O) :
    soddyOuterCircle ⟨scaled c ρ A, scaled c ρ B, scaled c ρ C⟩ = .ok ⟨scaled c ρ O.center, O.radius / ρ⟩ := by
  obtain ⟨Δ, hΔ, eΔ, hΔ2, h0, h1⟩ := soddy_run hx hy hz ab ac bc
  obtain ⟨Δ', hΔ', eΔ', hΔ2', -, h1'⟩ := soddy_run (A := scaled c ρ A) (B := scaled c ρ B) (C := scaled c ρ C) (x := x / ρ) (y := y / ρ) (z := z / ρ)
    (by positivity) (by positivity) (by positivity) (by rw [sqDist_scaled c hρ, ab]; field_simp) (by rw [sqDist_scaled c hρ, ac]; field_simp)
    (by rw [sqDist_scaled c hρ, bc]; field_simp)
  have eD : Δ' = Δ / ρ ^ 2 := by
    apply (pow_left_inj₀ hΔ'.le (by positivity) two_ne_zero).1
    rw [hΔ2', div_pow, hΔ2]; field_simp
  have hN : x * y + y * z + z * x - 2 * Δ ≠ 0 := by
    intro hN
    rw [h0 hN] at h
    cases h
  have hsum := (soddy_tangent hx hy hz hΔ hΔ2 hN ab ac bc).1
  have hs0 : (y + z - Δ / x) + (x + z - Δ / y) + (x + y - Δ / z) ≠ 0 := by
    rw [hsum]
    exact neg_ne_zero.2 (div_ne_zero (mul_ne_zero hΔ.ne' hN) (by positivity))
  have hN' : x / ρ * (y / ρ) + y / ρ * (z / ρ) + z / ρ * (x / ρ) - 2 * Δ' = (x * y + y * z + z * x - 2 * Δ) / ρ ^ 2 := by
    rw [eD]; field_simp
  rw [h1 hN] at h
  cases h
  rw [h1' (by rw [hN']; exact div_ne_zero hN (by positivity)), hN']
  have p1 : y / ρ + z / ρ - Δ' / (x / ρ) = (y + z - Δ / x) / ρ := by rw [eD]; field_simp
  have p2 : x / ρ + z / ρ - Δ' / (y / ρ) = (x + z - Δ / y) / ρ := by rw [eD]; field_simp
  have p3 : x / ρ + y / ρ - Δ' / (z / ρ) = (x + y - Δ / z) / ρ := by rw [eD]; field_simp
  rw [p1, p2, p3]
  obtain ⟨a, ha⟩ : ∃ a, a = y + z - Δ / x := ⟨_, rfl⟩
  obtain ⟨b, hb⟩ : ∃ b, b = x + z - Δ / y := ⟨_, rfl⟩
  obtain ⟨e, he⟩ : ∃ e, e = x + y - Δ / z := ⟨_, rfl⟩
  rw [← ha, ← hb, ← he] at hs0 ⊢
  congr 1
  ext1
  · unfold scaled
    have e1 : a / ρ + b / ρ + e / ρ = (a + b + e) / ρ := by field_simp
    dsimp only
    rw [e1]
    ext
    · simp only [Pt.div_x, Pt.sub_x, Pt.add_x, Pt.smul_x]; field_simp; ring
    · simp only [Pt.div_y, Pt.sub_y, Pt.add_y, Pt.smul_y]; field_simp; ring
  · dsimp only
    rw [show x / ρ * (y / ρ) * (z / ρ) / ((x * y + y * z + z * x - 2 * Δ) / ρ ^ 2) = x * y * z / (x * y + y * z + z * x - 2 * Δ) / ρ by field_simp,
      abs_div, abs_of_pos hρ]

/-- C106: the triangle the scripts draw is not flat, the circle around its Malfatti circles is the unit circle, and the radii are those of the
Malfatti circles of the first triangle divided by the radius of the circle around them. -/
theorem C106_normalised (T : Triangle) (h : ¬ Collinear T.A T.B T.C) (m : Triangle.Malfatti) (hm : T.malfatti_circles = .ok (some m)) (O : Circle)
    (hO : soddyOuterCircle ⟨m.cA.center, m.cB.center, m.cC.center⟩ = .ok O) :
    ∃ t n, normalised T = .ok t ∧ ¬ Collinear t.A t.B t.C ∧ t.malfatti_circles = .ok (some n) ∧
      soddyOuterCircle ⟨n.cA.center, n.cB.center, n.cC.center⟩ = .ok ⟨⟨0, 0⟩, 1⟩ ∧ Soddy n.cA n.cB n.cC ⟨⟨0, 0⟩, 1⟩ ∧
      n.cA.radius = m.cA.radius / O.radius ∧ n.cB.radius = m.cB.radius / O.radius ∧ n.cC.radius = m.cC.radius / O.radius := by
  obtain ⟨m', O', hm', hO', hs⟩ := C106_malfatti T h
  rw [hm] at hm'
  cases hm'
  rw [hO] at hO'
  cases hO'
  have hR : 0 < O.radius := hs.vO
  obtain ⟨t, ht⟩ : ∃ t : Triangle, t = ⟨scaled O.center O.radius T.A, scaled O.center O.radius T.B, scaled O.center O.radius T.C⟩ := ⟨_, rfl⟩
  have hn : normalised T = .ok t := by
    unfold normalised
    rw [hm, Res.ok_bind]
    dsimp only
    rw [hO, Res.ok_bind, ht]
    rfl
  have hnc : ¬ Collinear t.A t.B t.C := by
    intro hc
    apply h
    rw [ht] at hc
    simp only [Collinear, cross, scaled, Pt.sub_x, Pt.sub_y, Pt.div_x, Pt.div_y] at hc ⊢
    field_simp at hc
    linarith
  obtain ⟨m', O', hm', hO', hs'⟩ := C106_malfatti t hnc
  obtain ⟨m1, hm1, -, x, y, z, r, p, q, s, I, dat⟩ := malfatti_full T h
  obtain ⟨m1', hm1', -, x', y', z', r', p', q', s', I', dat'⟩ := malfatti_full t hnc
  rw [hm] at hm1
  cases hm1
  rw [hm'] at hm1'
  cases hm1'
  obtain ⟨eA, eB, eC⟩ := malfatti_scaled hR (by rw [ht]) (by rw [ht]) (by rw [ht]) dat dat'
  have := soddy_scaled (c := O.center) hR hs.v0 hs.v1 hs.v2 hs.t01 hs.t02 hs.t12 hO
  have e0 : scaled O.center O.radius O.center = ⟨0, 0⟩ := by
    unfold scaled; ext <;> simp
  rw [e0, div_self hR.ne'] at this
  have hO2 : soddyOuterCircle ⟨m'.cA.center, m'.cB.center, m'.cC.center⟩ = .ok ⟨⟨0, 0⟩, 1⟩ := by
    rw [eA, eB, eC]; exact this
  rw [hO'] at hO2
  cases hO2
  exact ⟨t, m', hn, hnc, hm', hO', hs', by rw [eA], by rw [eB], by rw [eC]⟩

/-- The triangle `(0, 0)`, `(4, 0)`, `(1, 3)`: after normalisation the outer circle is the unit circle. -/
example : ∃ t n, normalised ⟨⟨0, 0⟩, ⟨4, 0⟩, ⟨1, 3⟩⟩ = .ok t ∧ t.malfatti_circles = .ok (some n) ∧
    soddyOuterCircle ⟨n.cA.center, n.cB.center, n.cC.center⟩ = .ok ⟨⟨0, 0⟩, 1⟩ := by
  have h : ¬ Collinear (⟨0, 0⟩ : Pt) ⟨4, 0⟩ ⟨1, 3⟩ := by unfold Collinear; norm_num [cross]
  obtain ⟨m, O, h1, h2, -⟩ := C106_malfatti ⟨⟨0, 0⟩, ⟨4, 0⟩, ⟨1, 3⟩⟩ h
  obtain ⟨t, n, k1, -, k2, k3, -⟩ := C106_normalised _ h m h1 O h2
  exact ⟨t, n, k1, k2, k3⟩

/-- C106: the scripts as they are run.  Let `R` be the radius of the circle around the Malfatti circles of the triangle.  If the radii of the Malfatti
circles are at least `R/60` and no two of them add up to `R`, nothing raises, and all the levels are as in `C106_packing_partial`, inside the unit
circle.  Missing from the full claim (every non-flat triangle): see `C106_flat` and `C106_counterexample`; very small Malfatti circles can be closer
to the other ones than the tolerances of the library. -/
theorem C106_script_partial (T : Triangle) (h : ¬ Collinear T.A T.B T.C) (m : Triangle.Malfatti) (hm : T.malfatti_circles = .ok (some m)) (O : Circle)
    (hO : soddyOuterCircle ⟨m.cA.center, m.cB.center, m.cC.center⟩ = .ok O)
    (hA : O.radius / 60 ≤ m.cA.radius) (hB : O.radius / 60 ≤ m.cB.radius) (hC : O.radius / 60 ≤ m.cC.radius)
    (nAB : m.cA.radius + m.cB.radius ≠ O.radius) (nAC : m.cA.radius + m.cC.radius ≠ O.radius) (nBC : m.cB.radius + m.cC.radius ≠ O.radius) :
    ∃ t n st, normalised T = .ok t ∧ t.malfatti_circles = .ok (some n) ∧ drawGasket t = .ok st ∧ ∀ d,
    ∃ L : List (Circle × ℕ), gasket st.inversions st.circles0 d = .ok (L.map pairG) ∧ L.length = 4 * 3 ^ d ∧
      (∀ p ∈ L, 0 < p.1.radius ∧ (disc p.1).Apart (disc n.cA) ∧ (disc p.1).Apart (disc n.cB) ∧ (disc p.1).Apart (disc n.cC) ∧
        (disc p.1).Apart (outside ⟨⟨0, 0⟩, 1⟩)) ∧
      L.Pairwise (fun p q => (disc p.1).Apart (disc q.1)) ∧
      (∀ e < d, ∀ L' : List (Circle × ℕ), gasket st.inversions st.circles0 e = .ok (L'.map pairG) →
        ∀ p ∈ L, ∀ q ∈ L', (disc p.1).Apart (disc q.1)) ∧
      ∀ p ∈ L, ∃ q : Fin 3 → Region, Function.Injective q ∧ ∀ i, q i ∈ MalfattiRegions n ⟨⟨0, 0⟩, 1⟩ st d ∧ (disc p.1).Touches (q i) := by
  obtain ⟨m', O', hm', hO', hs⟩ := C106_malfatti T h
  rw [hm] at hm'
  cases hm'
  rw [hO] at hO'
  cases hO'
  have hR : 0 < O.radius := hs.vO
  obtain ⟨t, n, ht, hnc, hn, hOn, hsn, eA, eB, eC⟩ := C106_normalised T h m hm O hO
  have big : ∀ {a : ℝ}, O.radius / 60 ≤ a → 1 / 60 ≤ a / O.radius := by
    intro a ha; rw [le_div_iff₀ hR]; linarith
  have ne : ∀ {a b : ℝ}, a + b ≠ O.radius → a / O.radius + b / O.radius ≠ 1 := by
    intro a b hab e
    apply hab
    rw [← add_div, div_eq_one_iff_eq hR.ne'] at e
    exact e
  obtain ⟨i0, i1, i2, i3, g0, g1, g2, g3, f0, f1, f2, f3, k0, k1, k2, k3, d0, d1, d2, d3⟩ := unit_ok hsn (by rw [eA]; exact big hA)
    (by rw [eB]; exact big hB) (by rw [eC]; exact big hC) (by rw [eA, eB]; exact ne nAB) (by rw [eA, eC]; exact ne nAC) (by rw [eB, eC]; exact ne nBC)
  have hst := (drawGasket_ok hn hOn).2 ⟨i0, i1, i2, i3, g0, g1, g2, g3, f0, f1, f2, f3, k0, k1, k2, k3, rfl⟩
  refine ⟨t, n, _, ht, hn, hst, ?_⟩
  intro d
  refine C106_packing_partial t hnc n hn _ hOn _ hst ?_ ?_ d
  · intro iota hi
    simp only [List.take_succ_cons, List.take_zero, List.mem_cons, List.not_mem_nil, or_false] at hi
    rcases hi with rfl | rfl | rfl
    exacts [d0, d1, d2]
  · intro iota hi
    simp only [List.drop_succ_cons, List.drop_zero, List.mem_cons, List.not_mem_nil, or_false] at hi
    subst hi
    exact d3

/-- C106: when the radii of two of the Malfatti circles add up to the radius of the circle around them, `drawGasket` raises, and so do the scripts. -/
theorem C106_flat (T : Triangle) (h : ¬ Collinear T.A T.B T.C) (m : Triangle.Malfatti) (hm : T.malfatti_circles = .ok (some m)) (O : Circle)
    (hO : soddyOuterCircle ⟨m.cA.center, m.cB.center, m.cC.center⟩ = .ok O) (hsum : m.cA.radius + m.cB.radius = O.radius ∨
      m.cA.radius + m.cC.radius = O.radius ∨ m.cB.radius + m.cC.radius = O.radius) :
    (∀ st, drawGasket T ≠ .ok st) ∧ ∃ t, normalised T = .ok t ∧ ∀ st, drawGasket t ≠ .ok st := by
  have key : ∀ (T : Triangle), ¬ Collinear T.A T.B T.C → ∀ (m : Triangle.Malfatti), T.malfatti_circles = .ok (some m) → ∀ O,
      soddyOuterCircle ⟨m.cA.center, m.cB.center, m.cC.center⟩ = .ok O → (m.cA.radius + m.cB.radius = O.radius ∨
      m.cA.radius + m.cC.radius = O.radius ∨ m.cB.radius + m.cC.radius = O.radius) → ∀ st, drawGasket T ≠ .ok st := by
    intro T h m hm O hO hsum st hst
    obtain ⟨m', O', hm', hO', hs⟩ := C106_malfatti T h
    rw [hm] at hm'
    cases hm'
    rw [hO] at hO'
    cases hO'
    obtain ⟨i0, i1, i2, i3, g0, g1, g2, g3, f0, f1, f2, -⟩ := (drawGasket_ok hm hO).1 hst
    rcases hsum with hsum | hsum | hsum
    · exact fixing_flat (flat_int hs.i0 hs.i1 hs.t01 hsum) _ f2
    · exact fixing_flat (flat_int hs.i0 hs.i2 hs.t02 hsum) _ f1
    · exact fixing_flat (flat_int hs.i1 hs.i2 hs.t12 hsum) _ f0
  refine ⟨key T h m hm O hO hsum, ?_⟩
  obtain ⟨m', O', hm', hO', hs⟩ := C106_malfatti T h
  rw [hm] at hm'
  cases hm'
  rw [hO] at hO'
  cases hO'
  have hR : 0 < O.radius := hs.vO
  obtain ⟨t, n, ht, hnc, hn, hOn, -, eA, eB, eC⟩ := C106_normalised T h m hm O hO
  refine ⟨t, ht, key t hnc n hn _ hOn ?_⟩
  rw [eA, eB, eC]
  dsimp only
  rw [← add_div, ← add_div, ← add_div, div_eq_one_iff_eq hR.ne', div_eq_one_iff_eq hR.ne', div_eq_one_iff_eq hR.ne']
  exact hsum

/-! ### Two triangles -/

/-- The numbers of a triangle from its sides. -/
theorem malfatti_numbers {T : Triangle} {m : Triangle.Malfatti} {x y z r p q t x' y' z' r' p' q' t' : ℝ} {I : Pt}
    (h : MalfattiData T m x y z r p q t I) (ha : Spec.dist T.B T.C = y' + z') (hb : Spec.dist T.A T.C = z' + x') (hc : Spec.dist T.A T.B = x' + y')
    (hr : 0 < r') (hp : 0 < p') (hq : 0 < q') (ht : 0 < t') (hrs : r' ^ 2 * (x' + y' + z') = x' * y' * z') (p2 : p' ^ 2 = r' ^ 2 + x' ^ 2)
    (q2 : q' ^ 2 = r' ^ 2 + y' ^ 2) (t2 : t' ^ 2 = r' ^ 2 + z' ^ 2) :
    m.cA.radius = r' / 2 * (x' + y' + z' - r' - (q' + t' - p')) / x' ∧ m.cB.radius = r' / 2 * (x' + y' + z' - r' - (t' + p' - q')) / y' ∧
    m.cC.radius = r' / 2 * (x' + y' + z' - r' - (p' + q' - t')) / z' := by
  have e1 := h.ha
  have e2 := h.hb
  have e3 := h.hc
  have ex : x = x' := by linarith
  have ey : y = y' := by linarith
  have ez : z = z' := by linarith
  subst ex ey ez
  have hx := h.hx
  have hy := h.hy
  have hz := h.hz
  have er : r = r' := by
    refine (pow_left_inj₀ h.hr.le hr.le two_ne_zero).1 ?_
    apply mul_right_cancel₀ (show x + y + z ≠ 0 by positivity)
    rw [hrs, h.hrs]
  subst er
  have ep : p = p' := (pow_left_inj₀ h.hp.le hp.le two_ne_zero).1 (by rw [p2, h.p2])
  have eq : q = q' := (pow_left_inj₀ h.hq.le hq.le two_ne_zero).1 (by rw [q2, h.q2])
  have et : t = t' := (pow_left_inj₀ h.ht.le ht.le two_ne_zero).1 (by rw [t2, h.t2])
  subst ep eq et
  exact ⟨h.r1, h.r2, h.r3⟩

/-- C106: a triangle for which the scripts raise.  The radii of its Malfatti circles are 2, 3 and 3, and the circle around them has radius 6. -/
theorem C106_counterexample : ∃ T : Triangle, T = ⟨⟨0, 6 + 3 * √6 / 2⟩, ⟨-(6 + 2 * √6), 0⟩, ⟨6 + 2 * √6, 0⟩⟩ ∧ ¬ Collinear T.A T.B T.C ∧
    (∀ st, drawGasket T ≠ .ok st) ∧ ∃ t, normalised T = .ok t ∧ ∀ st, drawGasket t ≠ .ok st := by
  obtain ⟨s, hs⟩ : ∃ s, s = √6 := ⟨_, rfl⟩
  have s2 : s ^ 2 = 6 := by rw [hs]; exact Real.sq_sqrt (by norm_num)
  have s0 : 0 < s := by rw [hs]; positivity
  refine ⟨_, rfl, ?_⟩
  rw [← hs]
  obtain ⟨T, hT⟩ : ∃ T : Triangle, T = ⟨⟨0, 6 + 3 * s / 2⟩, ⟨-(6 + 2 * s), 0⟩, ⟨6 + 2 * s, 0⟩⟩ := ⟨_, rfl⟩
  have hnc : ¬ Collinear T.A T.B T.C := by
    intro hc
    rw [hT] at hc
    simp only [Collinear, cross, Pt.sub_x, Pt.sub_y] at hc
    have : 0 < 2 * (6 + 2 * s) * (6 + 3 * s / 2) := by positivity
    linarith
  have ha : Spec.dist T.B T.C = (6 + 2 * s) + (6 + 2 * s) := by
    rw [hT]; exact (dist_eq_iff (by positivity)).2 (by unfold sqDist; ring)
  have hb : Spec.dist T.A T.C = (6 + 2 * s) + 3 * s / 2 := by
    rw [hT]; exact (dist_eq_iff (by positivity)).2 (by unfold sqDist; linear_combination (-6) * s2)
  have hc : Spec.dist T.A T.B = 3 * s / 2 + (6 + 2 * s) := by
    rw [hT]; exact (dist_eq_iff (by positivity)).2 (by unfold sqDist; linear_combination (-6) * s2)
  rw [← hT]
  refine ⟨hnc, ?_⟩
  obtain ⟨m, hm, cfg, x, y, z, r, p, q, t, I, dat⟩ := malfatti_full T hnc
  obtain ⟨rA, rB, rC⟩ := malfatti_numbers dat (r' := (6 * s + 6) / 5) (p' := 24 / 5 + 3 * s / 10) (q' := (14 * s + 24) / 5) (t' := (14 * s + 24) / 5)
    ha hb hc (by positivity) (by positivity) (by positivity) (by positivity) (by nlinarith) (by nlinarith) (by nlinarith) (by nlinarith)
  have eA : m.cA.radius = 2 := by
    rw [rA, div_eq_iff (by positivity)]; linear_combination (-3 / 5) * s2
  have eB : m.cB.radius = 3 := by
    rw [rB, div_eq_iff (by positivity)]; linear_combination (12 / 5) * s2
  have eC : m.cC.radius = 3 := by
    rw [rC, div_eq_iff (by positivity)]; linear_combination (12 / 5) * s2
  have hk := malfatti_descartes dat cfg.posA cfg.posB cfg.posC
  obtain ⟨O, hO, hrO, -⟩ := (C106_outer _ _ _ _ _ _ _ cfg.posA cfg.posB cfg.posC cfg.tAB cfg.tAC cfg.tBC rfl).1 hk
  refine C106_flat T hnc m hm O hO (Or.inr (Or.inr ?_))
  rw [hrO, eA, eB, eC, show (1 / ((2 : ℝ) * 3) + 1 / (3 * 3) + 1 / (3 * 2)) = (2 / 3) ^ 2 by norm_num, Real.sqrt_sq (by norm_num)]
  norm_num

/-- The hypotheses of `C106_script_partial` hold for an equilateral triangle. -/
example : ∃ t n st, normalised ⟨⟨-1, 0⟩, ⟨1, 0⟩, ⟨0, √3⟩⟩ = .ok t ∧ t.malfatti_circles = .ok (some n) ∧ drawGasket t = .ok st ∧
    ∀ d, ∃ L : List (Circle × ℕ), gasket st.inversions st.circles0 d = .ok (L.map pairG) ∧ L.length = 4 * 3 ^ d := by
  obtain ⟨s, hs⟩ : ∃ s, s = √3 := ⟨_, rfl⟩
  have s2 : s ^ 2 = 3 := by rw [hs]; exact Real.sq_sqrt (by norm_num)
  have s0 : 0 < s := by rw [hs]; positivity
  have l1 : 1.7 < s := by nlinarith
  have l2 : s < 1.74 := by nlinarith
  rw [← hs]
  obtain ⟨T, hT⟩ : ∃ T : Triangle, T = ⟨⟨-1, 0⟩, ⟨1, 0⟩, ⟨0, s⟩⟩ := ⟨_, rfl⟩
  have hnc : ¬ Collinear T.A T.B T.C := by
    intro hc
    rw [hT] at hc
    simp only [Collinear, cross, Pt.sub_x, Pt.sub_y] at hc
    linarith
  have ha : Spec.dist T.B T.C = 1 + 1 := by rw [hT]; exact (dist_eq_iff (by norm_num)).2 (by unfold sqDist; linear_combination s2)
  have hb : Spec.dist T.A T.C = 1 + 1 := by rw [hT]; exact (dist_eq_iff (by norm_num)).2 (by unfold sqDist; linear_combination s2)
  have hc : Spec.dist T.A T.B = 1 + 1 := by rw [hT]; exact (dist_eq_iff (by norm_num)).2 (by unfold sqDist; norm_num)
  rw [← hT]
  obtain ⟨m, hm, cfg, x, y, z, r, p, q, t, I, dat⟩ := malfatti_full T hnc
  obtain ⟨rA, rB, rC⟩ := malfatti_numbers dat (r' := s / 3) (p' := 2 * s / 3) (q' := 2 * s / 3) (t' := 2 * s / 3)
    ha hb hc (by positivity) (by positivity) (by positivity) (by positivity) (by nlinarith) (by nlinarith) (by nlinarith) (by nlinarith)
  have e : s / 3 / 2 * (1 + 1 + 1 - s / 3 - (2 * s / 3 + 2 * s / 3 - 2 * s / 3)) / 1 = (s - 1) / 2 := by
    linear_combination (-1 / 6) * s2
  rw [e] at rA rB rC
  have hk := malfatti_descartes dat cfg.posA cfg.posB cfg.posC
  obtain ⟨O, hO, hrO, -⟩ := (C106_outer _ _ _ _ _ _ _ cfg.posA cfg.posB cfg.posC cfg.tAB cfg.tAC cfg.tBC rfl).1 hk
  obtain ⟨u, hu⟩ : ∃ u, u = (s - 1) / 2 := ⟨_, rfl⟩
  have u0 : 0.35 < u := by rw [hu]; linarith
  rw [← hu] at rA rB rC
  have hR : O.radius = u / (2 * s - 3) := by
    have e3 : √(1 / (u * u) + 1 / (u * u) + 1 / (u * u)) = s / u := by
      rw [show 1 / (u * u) + 1 / (u * u) + 1 / (u * u) = (s / u) ^ 2 by rw [div_pow, s2]; field_simp; norm_num]
      exact Real.sqrt_sq (by positivity)
    rw [hrO, rA, rB, rC, e3, show 1 / u + 1 / u + 1 / u - 2 * (s / u) = -((2 * s - 3) / u) by ring, one_div, inv_neg, neg_neg, inv_div]
  have hne : u + u ≠ O.radius := by
    rw [hR]
    intro h
    rw [eq_div_iff (by linarith)] at h
    nlinarith
  have hle : O.radius / 60 ≤ u := by
    rw [hR, div_div, div_le_iff₀ (by linarith)]
    nlinarith
  obtain ⟨t, n, st, h1, h2, h3, h4⟩ := C106_script_partial T hnc m hm O hO (by rw [rA]; exact hle) (by rw [rB]; exact hle) (by rw [rC]; exact hle)
    (by rw [rA, rB]; exact hne) (by rw [rA, rC]; exact hne) (by rw [rB, rC]; exact hne)
  refine ⟨t, n, st, h1, h2, h3, fun d => ?_⟩
  obtain ⟨L, e1, e2, -⟩ := h4 d
  exact ⟨L, e1, e2⟩
