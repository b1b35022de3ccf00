import Verif.Lemmas.Modular
import Verif.Props.Farey

/-!
# C102: the figures of `ModularTessellation.py` and `ModularTessellation_animation.py`
-/

open Spec Real Classical

namespace Modular

/-! ## The rotation -/

theorem rot_entries (u : ℝ) : ∃ a b : ℝ, modularRot u = !![a, -b; b, a + b] ∧ a ^ 2 + a * b + b ^ 2 = 1 ∧ a + b / 2 = cos (u * (π / 3)) ∧
    b * (√3 / 2) = sin (u * (π / 3)) := by
  have hs := sin_third_pos
  refine ⟨1 / sin (π / 3) * sin ((1 - u) * (π / 3)), 1 / sin (π / 3) * sin (u * (π / 3)), ?_, ?_⟩
  · unfold modularRot
    rw [rot_coeffs' u]
    ext i j
    fin_cases i <;> fin_cases j <;> simp [mul_add]
  · have h1 : 1 / sin (π / 3) * sin ((1 - u) * (π / 3)) + 1 / sin (π / 3) * sin (u * (π / 3)) / 2 = cos (u * (π / 3)) := by
      rw [mul_div_assoc, ← mul_add, div_eq_mul_one_div (sin (u * (π / 3))), rot_coeffs u, ← mul_assoc, one_div_mul_cancel hs.ne', one_mul]
    have h2 : 1 / sin (π / 3) * sin (u * (π / 3)) * (√3 / 2) = sin (u * (π / 3)) := by
      rw [← sin_pi_div_three]
      generalize sin (u * (π / 3)) = w
      field_simp
    refine ⟨?_, h1, h2⟩
    have h3 : √3 ^ 2 = 3 := Real.sq_sqrt (by norm_num)
    have hcs := sin_sq_add_cos_sq (u * (π / 3))
    rw [← h1] at hcs
    have hcs' : (1 / sin (π / 3) * sin (u * (π / 3)) * (√3 / 2)) ^ 2 +
        (1 / sin (π / 3) * sin ((1 - u) * (π / 3)) + 1 / sin (π / 3) * sin (u * (π / 3)) / 2) ^ 2 = 1 := by rw [h2]; exact hcs
    clear hcs
    generalize 1 / sin (π / 3) * sin ((1 - u) * (π / 3)) = a at *
    generalize 1 / sin (π / 3) * sin (u * (π / 3)) = b at *
    linear_combination hcs' - b ^ 2 / 4 * h3

theorem rot_det (u : ℝ) : Matrix.det (modularRot u) = 1 := by
  obtain ⟨a, b, e, h, -⟩ := rot_entries u
  rw [e, Matrix.det_fin_two]
  simp only [Matrix.of_apply, Matrix.cons_val', Matrix.cons_val_zero, Matrix.cons_val_one, Matrix.cons_val_fin_one]
  linear_combination h

theorem rot_inj {a b a' b' : ℝ} (h1 : a + b / 2 = a' + b' / 2) (h2 : b * (√3 / 2) = b' * (√3 / 2)) : a = a' ∧ b = b' := by
  have : √3 / 2 ≠ 0 := by positivity
  have hb := mul_right_cancel₀ this h2
  subst hb
  exact ⟨by linarith, rfl⟩

theorem rot_add (u v : ℝ) : modularRot (u + v) = modularRot u * modularRot v := by
  obtain ⟨a, b, e, -, c1, s1⟩ := rot_entries u
  obtain ⟨a', b', e', -, c2, s2⟩ := rot_entries v
  obtain ⟨a'', b'', e'', -, c3, s3⟩ := rot_entries (u + v)
  have h3 : √3 ^ 2 = 3 := Real.sq_sqrt (by norm_num)
  rw [add_mul, cos_add, ← c1, ← c2, ← s1, ← s2] at c3
  rw [add_mul, sin_add, ← c1, ← c2, ← s1, ← s2] at s3
  obtain ⟨ha, hb⟩ := rot_inj (a := a'') (b := b'') (a' := a * a' - b * b') (b' := a * b' + b * a' + b * b') (by
    rw [c3]; linear_combination -(b * b' / 4) * h3) (by rw [s3]; ring)
  rw [e, e', e'', ha, hb]
  ext i j
  fin_cases i <;> fin_cases j <;> simp [Matrix.mul_apply, Fin.sum_univ_two] <;> ring

theorem rot_of {u a b : ℝ} (h1 : a + b / 2 = cos (u * (π / 3))) (h2 : b * (√3 / 2) = sin (u * (π / 3))) : modularRot u = !![a, -b; b, a + b] := by
  obtain ⟨a', b', e, -, c1, s1⟩ := rot_entries u
  obtain ⟨rfl, rfl⟩ := rot_inj (h1.trans c1.symm) (h2.trans s1.symm)
  exact e

theorem rot_zero : modularRot 0 = 1 := by
  rw [rot_of (u := 0) (a := 1) (b := 0) (by simp) (by simp)]
  ext i j
  fin_cases i <;> fin_cases j <;> simp

theorem rot_one : modularRot 1 = !![0, -1; 1, 1] := by
  rw [rot_of (u := 1) (a := 0) (b := 1) (by rw [one_mul, cos_pi_div_three]; norm_num) (by rw [one_mul, one_mul, sin_pi_div_three])]
  simp

theorem rot_three : modularRot 3 = -1 := by
  have h : 3 * (π / 3) = π := by ring
  rw [rot_of (u := 3) (a := -1) (b := 0) (by rw [h, cos_pi]; norm_num) (by rw [h, sin_pi]; norm_num)]
  ext i j
  fin_cases i <;> fin_cases j <;> simp

/-! ## The circles -/

/-- The real matrix of an element of the modular group followed by the rotation. -/
noncomputable def real (u : ℝ) (g : Matrix (Fin 2) (Fin 2) ℤ) : Matrix (Fin 2) (Fin 2) ℝ := modularRot u * g.map (fun k => (k : ℝ))

theorem map_eq_cay (u : ℝ) (g : Matrix (Fin 2) (Fin 2) ℤ) : modularMap u g = cay (real u g) := by
  unfold modularMap cay real
  rw [Matrix.mul_assoc]
  congr 1
  ext i j
  simp [Matrix.mul_apply, Fin.sum_univ_two]

theorem real_det (u : ℝ) {g : Matrix (Fin 2) (Fin 2) ℤ} (h : Matrix.det g = 1) : Matrix.det (real u g) = 1 := by
  unfold real
  rw [Matrix.det_mul, rot_det, one_mul, Matrix.det_fin_two]
  rw [Matrix.det_fin_two] at h
  simp only [Matrix.map_apply]
  exact_mod_cast h

theorem map_det (u : ℝ) {g : Matrix (Fin 2) (Fin 2) ℤ} (h : Matrix.det g = 1) : Matrix.det (modularMap u g) ≠ 0 := by
  rw [map_eq_cay]; exact cay_det _ (real_det u h)

theorem seed_upper : modularSeed.Valid ∧ modularSeed.radius < modularSeed.center.y := by
  unfold modularSeed Circle.Valid; norm_num

/-- The circle drawn for an element of the modular group. -/
noncomputable def K (u : ℝ) (g : Matrix (Fin 2) (Fin 2) ℤ) : Circle :=
  if h : ∃ c, IsDiscImage (modularMap u g) modularSeed c then h.choose else modularSeed

theorem K_spec (u : ℝ) {g : Matrix (Fin 2) (Fin 2) ℤ} (h : Matrix.det g = 1) : IsDiscImage (modularMap u g) modularSeed (K u g) := by
  have : ∃ c, IsDiscImage (modularMap u g) modularSeed c := by
    rw [map_eq_cay]
    obtain ⟨c, -, hc⟩ := cay_disc _ (real_det u h) _ seed_upper.1 seed_upper.2
    exact ⟨c, hc⟩
  unfold K
  rw [dif_pos this]
  exact this.choose_spec

theorem K_eq (u : ℝ) {g : Matrix (Fin 2) (Fin 2) ℤ} (h : Matrix.det g = 1) (c : Circle) : IsDiscImage (modularMap u g) modularSeed c ↔ K u g = c := by
  constructor
  · intro hc; exact image_unique (map_det u h) (K_spec u h) hc
  · rintro rfl; exact K_spec u h

theorem map_neg (u : ℝ) (g : Matrix (Fin 2) (Fin 2) ℤ) : modularMap u (-g) = -modularMap u g := by
  unfold modularMap
  rw [← Matrix.mul_neg]
  congr 1
  ext i j
  simp

theorem det_neg' {g : Matrix (Fin 2) (Fin 2) ℤ} (h : Matrix.det g = 1) : Matrix.det (-g) = 1 := by
  rw [Matrix.det_fin_two] at h ⊢
  simp only [Matrix.neg_apply]
  linear_combination h

theorem K_neg (u : ℝ) {g : Matrix (Fin 2) (Fin 2) ℤ} (h : Matrix.det g = 1) : K u (-g) = K u g := by
  symm
  rw [← K_eq u h]
  apply image_neg
  rw [← map_neg]
  exact K_spec u (det_neg' h)

/-! ## What is drawn -/

/-- The matrix of `T`. -/
def t : Matrix (Fin 2) (Fin 2) ℤ := !![0, -1; 1, 0]

theorem t_det : Matrix.det t = 1 := by unfold t; rw [Matrix.det_fin_two]; simp

theorem det_mul_one {g h : Matrix (Fin 2) (Fin 2) ℤ} (hg : Matrix.det g = 1) (hh : Matrix.det h = 1) : Matrix.det (g * h) = 1 := by
  rw [Matrix.det_mul, hg, hh, one_mul]

/-- The second circle of the script. -/
noncomputable def circTI : Circle := ⟨⟨0, 3 / 4⟩, 1 / 4⟩

theorem T_image : IsDiscImage T.M modularSeed circTI := by
  refine ⟨by unfold circTI; norm_num, ?_⟩
  intro P Q h
  have hd : T.M 0 0 * T.M 1 1 - T.M 0 1 * T.M 1 0 ≠ 0 := by unfold T; simp
  obtain ⟨μ, hμ, m1, m2⟩ := (mobImage_iff hd P Q).1 h
  simp only [T, Matrix.of_apply, Matrix.cons_val', Matrix.cons_val_zero, Matrix.cons_val_one, Matrix.cons_val_fin_one, zero_mul, zero_add,
    one_mul, add_zero, neg_mul] at m1 m2
  have hμ' : 0 < Complex.normSq μ := Complex.normSq_pos.2 hμ
  have k : 2 * (Complex.normSq μ * side circTI Q) = side modularSeed P := by
    have : Complex.normSq μ * side circTI Q = Complex.normSq (-den P - cpx circTI.center * num P) - circTI.radius ^ 2 * Complex.normSq (num P) := by
      rw [m1, m2, side, show μ * num Q - cpx circTI.center * (μ * den Q) = μ * (num Q - cpx circTI.center * den Q) by ring, Complex.normSq_mul,
        Complex.normSq_mul]; ring
    rw [this, side]
    generalize num P = n
    generalize den P = d
    simp [cpx, Complex.normSq_apply, circTI, modularSeed]
    ring
  rw [mem_disc_iff, mem_disc_iff, mem_edge_iff, mem_edge_iff, ← k]
  refine ⟨?_, ?_⟩
  · rw [← neg_pos, ← mul_neg, mul_pos_iff_of_pos_left two_pos, ← mul_neg, mul_pos_iff_of_pos_left hμ', neg_pos]
  · simp [hμ]

theorem T_det : Matrix.det T.M ≠ 0 := by unfold T; rw [Matrix.det_fin_two]; simp

theorem TI_eq : TI = .ok (.circle circTI) := by
  unfold TI
  have : circI = modularSeed := rfl
  rw [this]
  obtain ⟨c', e, v, hi⟩ := disc_image T T_det modularSeed seed_upper.1 (by
    simp [T, Mobius.c, Mobius.d, modularSeed, cpx, Complex.normSq_apply]; norm_num)
  rw [e, image_unique T_det T_image (c2 := c') ⟨v, fun P Q h => ?_⟩]
  have := hi P Q ((C49_transform T T_det P Q).2 h)
  exact ⟨this.1, this.2.1⟩

theorem image_comp {A B : Matrix (Fin 2) (Fin 2) ℂ} (hA : Matrix.det A ≠ 0) (hB : Matrix.det B ≠ 0) {c c1 c2 : Circle} (h1 : IsDiscImage B c c1)
    (h2 : IsDiscImage A c1 c2) : IsDiscImage (A * B) c c2 := by
  refine ⟨h2.1, fun P Q h => ?_⟩
  obtain ⟨X, e1, i1⟩ := (⟨B⟩ : Mobius).transform_spec ((det_ne_iff _).1 hB) P
  obtain ⟨Y, e2, i2⟩ := (⟨A⟩ : Mobius).transform_spec ((det_ne_iff _).1 hA) X
  have i3 := mobImage_comp ((det_ne_iff _).1 hB) ((det_ne_iff _).1 hA) i1 i2
  have hAB : Matrix.det (A * B) ≠ 0 := by rw [Matrix.det_mul]; exact mul_ne_zero hA hB
  obtain rfl : Y = Q := by
    refine mobImage_unique ((det_ne_iff _).1 hAB) ?_ h
    simpa only [Matrix.mul_apply, Fin.sum_univ_two] using i3
  have j1 := h1.2 P X i1
  have j2 := h2.2 X Y i2
  exact ⟨j1.1.trans j2.1, j1.2.trans j2.2⟩

theorem map_t (u : ℝ) (g : Matrix (Fin 2) (Fin 2) ℤ) : modularMap u (g * t) = modularMap u g * T.M := by
  unfold modularMap
  rw [Matrix.mul_assoc _ (g.map _) T.M]
  congr 1
  ext i j
  fin_cases i <;> fin_cases j <;> simp [Matrix.mul_apply, Fin.sum_univ_two, t, T]

theorem draw_two_eq (eig : Matrix (Fin 2) (Fin 2) ℂ → Mobius.Eig) (he : Mobius.IsEig R.M (eig R.M)) (u : ℝ) {m : Matrix (Fin 2) (Fin 2) ℤ}
    (hm : Matrix.det m = 1) : draw_two eig (.circle circTI) (ofInt m) u = .ok [K u m, K u (m * t)] := by
  unfold draw_two
  rw [Rt_eq eig he, Res.ok_bind]
  have hA : ((ofInt m).compose ⟨(modularRot u).map (fun x => (x : ℂ))⟩).compose Phi = ⟨modularMap u m⟩ := by
    unfold Mobius.compose ofInt Phi modularMap
    simp [Matrix.mul_assoc]
  rw [hA]
  dsimp only
  have hd := real_det u hm
  obtain ⟨c1, e1, i1⟩ := cay_disc _ hd modularSeed seed_upper.1 seed_upper.2
  obtain ⟨c2, e2, i2⟩ := cay_disc _ hd circTI (by unfold circTI Circle.Valid; norm_num) (by unfold circTI; norm_num)
  rw [← map_eq_cay] at e1 e2 i1 i2
  rw [show circI = modularSeed from rfl, e1, Res.ok_bind]
  unfold draw_circle transform_any
  dsimp only
  rw [Res.ok_bind, e2, Res.ok_bind]
  dsimp only
  rw [Res.ok_bind, (K_eq u hm c1).1 i1, (K_eq u (det_mul_one hm t_det) c2).1 (by rw [map_t]; exact image_comp (map_det u hm) T_det T_image i2)]
  rfl

/-- The four elements drawn by `draw_pair`. -/
def fam (m : Matrix (Fin 2) (Fin 2) ℤ) : List (Matrix (Fin 2) (Fin 2) ℤ) := [m, m * t, t * m, t * m * t]

theorem fam_det {m g : Matrix (Fin 2) (Fin 2) ℤ} (hm : Matrix.det m = 1) (hg : g ∈ fam m) : Matrix.det g = 1 := by
  unfold fam at hg
  simp only [List.mem_cons, List.not_mem_nil, or_false] at hg
  rcases hg with rfl | rfl | rfl | rfl
  · exact hm
  · exact det_mul_one hm t_det
  · exact det_mul_one t_det hm
  · exact det_mul_one (det_mul_one t_det hm) t_det

theorem draw_pair_eq (eig : Matrix (Fin 2) (Fin 2) ℂ → Mobius.Eig) (he : Mobius.IsEig R.M (eig R.M)) (u : ℝ) {m : Matrix (Fin 2) (Fin 2) ℤ}
    (hm : Matrix.det m = 1) : draw_pair eig (.circle circTI) (ofInt m) u = .ok ((fam m).map (K u)) := by
  unfold draw_pair
  have hT : (ofInt m).compose T = ofInt (t * m) := by
    unfold Mobius.compose ofInt T t
    rw [if_pos rfl]
    refine congrArg Mobius.mk ?_
    ext i j
    fin_cases i <;> fin_cases j <;> simp [Matrix.mul_apply, Fin.sum_univ_two, Matrix.vecMul, dotProduct]
  rw [draw_two_eq eig he u hm, Res.ok_bind, hT, draw_two_eq eig he u (det_mul_one t_det hm), Res.ok_bind]
  rfl

/-- The inverse of a matrix of determinant one. -/
def inv (m : Matrix (Fin 2) (Fin 2) ℤ) : Matrix (Fin 2) (Fin 2) ℤ := !![m 1 1, -m 0 1; -m 1 0, m 0 0]

/-- The opposite diagonal. -/
def flip (m : Matrix (Fin 2) (Fin 2) ℤ) : Matrix (Fin 2) (Fin 2) ℤ := !![-m 0 0, m 0 1; m 1 0, -m 1 1]

theorem inv_det {m : Matrix (Fin 2) (Fin 2) ℤ} (h : Matrix.det m = 1) : Matrix.det (inv m) = 1 := by
  rw [Matrix.det_fin_two] at h
  unfold inv
  rw [Matrix.det_fin_two]
  simp only [Matrix.of_apply, Matrix.cons_val', Matrix.cons_val_zero, Matrix.cons_val_one, Matrix.cons_val_fin_one]
  linear_combination h

theorem flip_det {m : Matrix (Fin 2) (Fin 2) ℤ} (h : Matrix.det m = 1) : Matrix.det (flip m) = 1 := by
  rw [Matrix.det_fin_two] at h
  unfold flip
  rw [Matrix.det_fin_two]
  simp only [Matrix.of_apply, Matrix.cons_val', Matrix.cons_val_zero, Matrix.cons_val_one, Matrix.cons_val_fin_one]
  linear_combination h

theorem ofInt_inverse (m : Matrix (Fin 2) (Fin 2) ℤ) : (ofInt m).inverse = ofInt (inv m) := by
  unfold Mobius.inverse ofInt inv Mobius.a Mobius.b Mobius.c Mobius.d
  refine congrArg Mobius.mk ?_
  ext i j
  fin_cases i <;> fin_cases j <;> simp

/-- The elements drawn for one array, without the third pair of the script. -/
def full (m : Matrix (Fin 2) (Fin 2) ℤ) : List (Matrix (Fin 2) (Fin 2) ℤ) := fam m ++ fam (inv m) ++ fam (flip m) ++ fam (inv (flip m))

theorem full_det {m g : Matrix (Fin 2) (Fin 2) ℤ} (hm : Matrix.det m = 1) (hg : g ∈ full m) : Matrix.det g = 1 := by
  unfold full at hg
  simp only [List.mem_append] at hg
  rcases hg with ((hg | hg) | hg) | hg
  · exact fam_det hm hg
  · exact fam_det (inv_det hm) hg
  · exact fam_det (flip_det hm) hg
  · exact fam_det (inv_det (flip_det hm)) hg

theorem fam_neg (m : Matrix (Fin 2) (Fin 2) ℤ) : fam (-m) = (fam m).map (fun g => -g) := by
  unfold fam
  simp

theorem K_fam_neg (u : ℝ) {m : Matrix (Fin 2) (Fin 2) ℤ} (hm : Matrix.det m = 1) : (fam (-m)).map (K u) = (fam m).map (K u) := by
  rw [fam_neg, List.map_map]
  refine List.map_congr_left fun g hg => ?_
  exact K_neg u (fam_det hm hg)

/-- What the array becomes. -/
theorem next_eq (m : Matrix (Fin 2) (Fin 2) ℤ) : (!![-m 1 1, m 0 1; m 1 0, -m 0 0] : Matrix (Fin 2) (Fin 2) ℤ) = -inv m := by
  unfold inv
  ext i j
  fin_cases i <;> fin_cases j <;> simp

theorem inv_neg_inv (m : Matrix (Fin 2) (Fin 2) ℤ) : inv (-inv m) = -m := by
  unfold inv
  ext i j
  fin_cases i <;> fin_cases j <;> simp

theorem flip_neg_inv (m : Matrix (Fin 2) (Fin 2) ℤ) : flip (-inv m) = -inv (flip m) := by
  unfold inv flip
  ext i j
  fin_cases i <;> fin_cases j <;> simp

theorem inv_flip_neg_inv (m : Matrix (Fin 2) (Fin 2) ℤ) : inv (flip (-inv m)) = -flip m := by
  unfold inv flip
  ext i j
  fin_cases i <;> fin_cases j <;> simp

/-- One turn of the loop: the circles drawn are those of `full`, and the array becomes the opposite of its inverse. -/
theorem turn_eq (eig : Matrix (Fin 2) (Fin 2) ℂ → Mobius.Eig) (he : Mobius.IsEig R.M (eig R.M)) (u : ℝ) {m : Matrix (Fin 2) (Fin 2) ℤ}
    (hm : Matrix.det m = 1) : ∃ l, turn eig (.circle circTI) u m = .ok (l, -inv m) ∧ ∀ c, c ∈ l ↔ ∃ g ∈ full m, K u g = c := by
  have hfd : fill_diagonal m (-m 0 0) (-m 1 1) = flip m := rfl
  unfold turn
  rw [hfd]
  dsimp only
  rw [draw_pair_eq eig he u hm, Res.ok_bind, ofInt_inverse, draw_pair_eq eig he u (inv_det hm), Res.ok_bind, draw_pair_eq eig he u (flip_det hm),
    Res.ok_bind, ofInt_inverse, draw_pair_eq eig he u (inv_det (flip_det hm)), Res.ok_bind]
  have h00 : flip m 0 0 = -m 0 0 := rfl
  have h11 : flip m 1 1 = -m 1 1 := rfl
  have base : ∀ c, c ∈ (fam m).map (K u) ++ (fam (inv m)).map (K u) ++ (fam (flip m)).map (K u) ++ (fam (inv (flip m))).map (K u) ↔
      ∃ g ∈ full m, K u g = c := by
    intro c
    rw [← List.map_append, ← List.map_append, ← List.map_append, List.mem_map]
    rfl
  by_cases hd : m 0 0 = m 1 1
  · rw [if_neg (by rw [h00, h11, hd]; simp)]
    refine ⟨_, ?_, base⟩
    rw [Res.pure_ok]
    have : flip m = -inv m := by
      unfold flip inv
      ext i j
      fin_cases i <;> fin_cases j <;> simp [hd]
    rw [this]
  · rw [if_pos (by rw [h00, h11]; intro h; exact hd (neg_injective h))]
    have hfd2 : fill_diagonal (flip m) (flip m 1 1) (flip m 0 0) = -inv m := by
      rw [← next_eq]; rfl
    rw [hfd2, ofInt_inverse, inv_neg_inv, draw_pair_eq eig he u (det_neg' (inv_det hm)), Res.ok_bind, draw_pair_eq eig he u (det_neg' hm), Res.ok_bind]
    refine ⟨_, rfl, ?_⟩
    intro c
    rw [K_fam_neg u (inv_det hm), K_fam_neg u hm, List.mem_append, List.mem_append, base c]
    constructor
    · rintro ((h | h) | h)
      · exact h
      · obtain ⟨g, hg, e⟩ := List.mem_map.1 h
        exact ⟨g, by unfold full; simp [hg], e⟩
      · obtain ⟨g, hg, e⟩ := List.mem_map.1 h
        exact ⟨g, by unfold full; simp [hg], e⟩
    · intro h; exact Or.inl (Or.inl h)

/-- The circles do not change when the array is replaced by the opposite of its inverse. -/
theorem full_next (u : ℝ) {m : Matrix (Fin 2) (Fin 2) ℤ} (hm : Matrix.det m = 1) (c : Circle) :
    (∃ g ∈ full (-inv m), K u g = c) ↔ ∃ g ∈ full m, K u g = c := by
  have e : ∀ m, (∃ g ∈ full m, K u g = c) ↔ c ∈ (fam m).map (K u) ++ (fam (inv m)).map (K u) ++ (fam (flip m)).map (K u) ++
      (fam (inv (flip m))).map (K u) := by
    intro m
    rw [← List.map_append, ← List.map_append, ← List.map_append, List.mem_map]
    rfl
  rw [e, e, inv_neg_inv, inv_flip_neg_inv, flip_neg_inv, K_fam_neg u hm, K_fam_neg u (inv_det hm), K_fam_neg u (flip_det hm),
    K_fam_neg u (inv_det (flip_det hm))]
  simp only [List.mem_append]
  tauto

/-- One figure. -/
theorem figure_eq (eig : Matrix (Fin 2) (Fin 2) ℂ → Mobius.Eig) (he : Mobius.IsEig R.M (eig R.M)) (u : ℝ) (ms : List (Matrix (Fin 2) (Fin 2) ℤ))
    (hms : ∀ m ∈ ms, Matrix.det m = 1) : ∃ l, figure eig (.circle circTI) u ms = .ok (l, ms.map fun m => -inv m) ∧
      ∀ c, c ∈ l ↔ ∃ m ∈ ms, ∃ g ∈ full m, K u g = c := by
  have ex : ∀ m : Matrix (Fin 2) (Fin 2) ℤ, ∃ l, Matrix.det m = 1 → turn eig (.circle circTI) u m = .ok (l, -inv m) ∧ ∀ c, c ∈ l ↔ ∃ g ∈ full m, K u g = c := by
    intro m
    by_cases h : Matrix.det m = 1
    · obtain ⟨l, hl⟩ := turn_eq eig he u h
      exact ⟨l, fun _ => hl⟩
    · exact ⟨[], fun h' => absurd h' h⟩
  choose f hf using ex
  unfold figure
  rw [mapM_ok _ (fun m => (f m, -inv m)) _ fun m hm => (hf m (hms m hm)).1, Res.ok_bind]
  refine ⟨((ms.map fun m => (f m, -inv m)).map Prod.fst).flatten, by rw [List.map_map, List.map_map]; rfl, ?_⟩
  intro c
  rw [List.map_map, List.mem_flatten]
  constructor
  · rintro ⟨l, hl, hc⟩
    obtain ⟨m, hm, rfl⟩ := List.mem_map.1 hl
    exact ⟨m, hm, ((hf m (hms m hm)).2 c).1 hc⟩
  · rintro ⟨m, hm, hc⟩
    exact ⟨f m, List.mem_map.2 ⟨m, hm, rfl⟩, ((hf m (hms m hm)).2 c).2 hc⟩

theorem frames_eq (eig : Matrix (Fin 2) (Fin 2) ℂ → Mobius.Eig) (he : Mobius.IsEig R.M (eig R.M)) (us : List ℝ) :
    ∀ ms : List (Matrix (Fin 2) (Fin 2) ℤ), (∀ m ∈ ms, Matrix.det m = 1) → ∃ ls, frames eig (.circle circTI) us ms = .ok ls ∧
      List.Forall₂ (fun u l => ∀ c, c ∈ l ↔ ∃ m ∈ ms, ∃ g ∈ full m, K u g = c) us ls := by
  induction us with
  | nil => intro ms _; exact ⟨[], rfl, .nil⟩
  | cons u us ih =>
    intro ms hms
    obtain ⟨l, e, hl⟩ := figure_eq eig he u ms hms
    obtain ⟨ls, e2, hls⟩ := ih (ms.map fun m => -inv m) (by
      intro m' hm'
      obtain ⟨m, hm, rfl⟩ := List.mem_map.1 hm'
      exact det_neg' (inv_det (hms m hm)))
    unfold frames
    rw [e, Res.ok_bind]
    dsimp only
    rw [e2, Res.ok_bind]
    refine ⟨l :: ls, rfl, .cons hl (hls.imp ?_)⟩
    intro v l' h c
    rw [h c]
    constructor
    · rintro ⟨m', hm', hg⟩
      obtain ⟨m, hm, rfl⟩ := List.mem_map.1 hm'
      exact ⟨m, hm, (full_next v (hms m hm) c).1 hg⟩
    · rintro ⟨m, hm, hg⟩
      exact ⟨-inv m, List.mem_map.2 ⟨m, hm, rfl⟩, (full_next v (hms m hm) c).2 hg⟩

end Modular
