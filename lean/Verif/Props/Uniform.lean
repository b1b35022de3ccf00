import Verif.Lemmas.UniformMaps
import Verif.Lemmas.Triangle
import Mathlib.Probability.Independence.Basic

/-!
# C121: the random points are uniformly distributed

The generator is a random variable `g` on a probability space; its draws have the laws documented by numpy.  Pseudo-randomness and rounding are not modelled.
-/

open MeasureTheory Set Spec
open scoped ENNReal Real

/-- Row `j` of the returned array exists and is in `E`. -/
def Spec.RowIn (r : Res (List Pt)) (j : ℕ) (E : Set (ℝ × ℝ)) : Prop := ∃ l P, r = .ok l ∧ l[j]? = some P ∧ coords P ∈ E

/-- The rows of the returned array are independent. -/
def Spec.IndepRows {Ω : Type*} [MeasurableSpace Ω] (Pr : Measure Ω) (r : Ω → Res (List Pt)) (n : ℕ) : Prop :=
  ∀ E : Fin n → Set (ℝ × ℝ), (∀ j, MeasurableSet (E j)) →
    Pr {ω | ∀ j : Fin n, RowIn (r ω) j (E j)} = ∏ j : Fin n, Pr {ω | RowIn (r ω) j (E j)}

namespace UL

variable {Ω : Type*} [MeasurableSpace Ω] {Pr : Measure Ω}

theorem rowIn_ofFn {n : ℕ} (f : Fin n → Pt) (j : Fin n) (E : Set (ℝ × ℝ)) : RowIn (.ok (List.ofFn f)) j E ↔ coords (f j) ∈ E := by
  constructor
  · rintro ⟨l, P, h1, h2, h3⟩
    obtain rfl := Except.ok.inj h1
    rw [List.getElem?_ofFn, dif_pos j.2, Option.some.injEq] at h2
    rw [← h2] at h3
    exact h3
  · intro h
    refine ⟨_, f j, rfl, ?_, h⟩
    rw [List.getElem?_ofFn, dif_pos j.2]

/-- The probability of an event in terms of the law of the draws. -/
theorem prob_eq {α : Type*} [MeasurableSpace α] {μ : Measure α} {X : Ω → α} (hX : Pr.map X = μ) (hμ : μ ≠ 0) {S : Set α} (hS : MeasurableSet S) {ev : Set Ω}
    (h : ∀ᵐ ω ∂Pr, ω ∈ ev ↔ X ω ∈ S) : Pr ev = μ S := by
  have hm : AEMeasurable X Pr := by
    by_contra hc
    rw [Measure.map_of_not_aemeasurable hc] at hX
    exact hμ hX.symm
  rw [← hX, Measure.map_apply_of_aemeasurable hm hS]
  exact measure_congr (h.mono fun ω hω => propext hω)

theorem indep_rows {α : Type*} [MeasurableSpace α] {n : ℕ} {X : Fin n → Ω → α} (hX : ProbabilityTheory.iIndepFun X Pr) {r : Ω → Res (List Pt)}
    {F : α → ℝ × ℝ} (hF : Measurable F) (h : ∀ᵐ ω ∂Pr, ∀ j E, RowIn (r ω) (j : Fin n) E ↔ F (X j ω) ∈ E) : IndepRows Pr r n := by
  intro E hE
  have e1 : ∀ j, Pr {ω | RowIn (r ω) (j : Fin n) (E j)} = Pr (X j ⁻¹' (F ⁻¹' E j)) :=
    fun j => measure_congr (h.mono fun ω hω => propext (hω j (E j)))
  have e2 : Pr {ω | ∀ j : Fin n, RowIn (r ω) j (E j)} = Pr (⋂ j, X j ⁻¹' (F ⁻¹' E j)) := by
    refine measure_congr (h.mono fun ω hω => propext ?_)
    change (∀ j : Fin n, RowIn (r ω) j (E j)) ↔ ω ∈ ⋂ j, X j ⁻¹' (F ⁻¹' E j)
    rw [mem_iInter]
    exact forall_congr' fun j => hω j (E j)
  rw [e2, Finset.prod_congr rfl fun j _ => e1 j]
  exact hX.meas_iInter fun j => ⟨_, hF (hE j), rfl⟩

theorem normal2_ne : normal2 ≠ 0 := by
  intro h
  have := normal2_univ
  rw [h] at this
  simp at this

theorem unif01_ne : unif01 ≠ 0 := by
  intro h
  have := unif01_univ
  rw [h] at this
  simp at this

instance : SFinite normal2 := by unfold normal2; infer_instance
instance : SFinite unif01 := by unfold unif01; infer_instance

theorem prod_ne {α β : Type*} [MeasurableSpace α] [MeasurableSpace β] {μ : Measure α} {ν : Measure β} [SFinite μ] [SFinite ν] (h1 : μ ≠ 0) (h2 : ν ≠ 0) :
    μ.prod ν ≠ 0 := by
  intro h
  have := Measure.prod_prod (μ := μ) (ν := ν) univ univ
  rw [h] at this
  simp at this
  tauto

theorem normal2_zero : normal2 {(0, 0)} = 0 := by
  unfold normal2
  exact withDensity_absolutelyContinuous _ _ (by simp)

theorem uniformOn_of {S : Set (ℝ × ℝ)} {prob : Set (ℝ × ℝ) → ℝ≥0∞} (h0 : volume S ≠ 0) (h1 : volume S ≠ ⊤)
    (h : ∀ E, MeasurableSet E → prob E * volume S = volume (E ∩ S)) : UniformOn S prob := by
  refine ⟨h0, h1, fun E hE => ?_⟩
  rw [ENNReal.eq_div_iff h0 h1, mul_comm]
  exact h E hE

/-- Almost surely no normal vector is zero. -/
theorem normal_ne {n : ℕ} {g : Ω → Gen} (h : ∀ j, Pr.map (fun ω => coords ((g ω).normal n j)) = normal2) :
    ∀ᵐ ω ∂Pr, ∀ j, (g ω).normal n j ≠ ⟨0, 0⟩ := by
  rw [ae_all_iff]
  intro j
  rw [ae_iff]
  have := prob_eq (ev := {ω | ¬ (g ω).normal n j ≠ ⟨0, 0⟩}) (h j) normal2_ne (measurableSet_singleton (0, 0)) (Filter.Eventually.of_forall fun ω => ?_)
  · rw [this, normal2_zero]
  · simp only [ne_eq, not_not, mem_setOf_eq, mem_singleton_iff, coords]
    constructor
    · intro hh; rw [hh]
    · intro hh; exact Pt.ext (congrArg Prod.fst hh) (congrArg Prod.snd hh)

/-- The first marginal of the joint law. -/
theorem marginal {n : ℕ} {g : Ω → Gen} (j : Fin n) (h : Pr.map (fun ω => (coords ((g ω).normal n j), (g ω).rand n j)) = normal2.prod unif01) :
    Pr.map (fun ω => coords ((g ω).normal n j)) = normal2 := by
  have hm : AEMeasurable (fun ω => (coords ((g ω).normal n j), (g ω).rand n j)) Pr := by
    by_contra hc
    rw [Measure.map_of_not_aemeasurable hc] at h
    exact prod_ne normal2_ne unif01_ne h.symm
  have := AEMeasurable.map_map_of_aemeasurable (μ := Pr) (g := Prod.fst) (f := fun ω => (coords ((g ω).normal n j), (g ω).rand n j)) measurable_fst.aemeasurable hm
  rw [h] at this
  rw [show (fun ω => coords ((g ω).normal n j)) = Prod.fst ∘ fun ω => (coords ((g ω).normal n j), (g ω).rand n j) from rfl, ← this]
  have e := Measure.map_fst_prod (μ := normal2) (ν := unif01)
  rw [e, unif01_univ, one_smul]

theorem coords_unit (s : Pt) (r : ℝ) : coords ((r • s) / vlength_ s) = r • unitv (coords s) := by
  unfold coords unitv vlength_
  ext <;> simp <;> ring

/-- The rows of `runif_on_circle_` when no vector is zero. -/
theorem on_circle_rows {g : Gen} {n : ℕ} (h : ∀ j, g.normal n j ≠ ⟨0, 0⟩) (r : Fin n → ℝ) :
    runif_on_circle_ g n r = .ok fun j => (r j • g.normal n j) / vlength_ (g.normal n j) := by
  unfold runif_on_circle_
  dsimp only
  rw [if_neg]
  rintro ⟨j, hj⟩
  apply h j
  unfold vlength_ at hj
  rw [Real.sqrt_eq_zero (by nlinarith [mul_self_nonneg (g.normal n j).x, mul_self_nonneg (g.normal n j).y])] at hj
  ext
  · dsimp only; nlinarith [mul_self_nonneg (g.normal n j).x, mul_self_nonneg (g.normal n j).y]
  · dsimp only; nlinarith [mul_self_nonneg (g.normal n j).x, mul_self_nonneg (g.normal n j).y]

theorem circle_in_rows {g : Gen} {n : ℕ} (hn : 0 < n) (h : ∀ j, g.normal n j ≠ ⟨0, 0⟩) (c : Circle) :
    c.random_points g n "in" = .ok (List.ofFn fun j : Fin n => c.radius • ((√(g.rand n j) • g.normal n j) / vlength_ (g.normal n j)) + c.center) := by
  unfold Circle.random_points
  rw [if_neg (by exact_mod_cast hn.not_ge), if_pos rfl]
  show (do return rowsPlus (← runif_in_circle_ g n c.radius) c.center) = _
  unfold runif_in_circle_
  rw [on_circle_rows h]
  rfl

theorem circle_on_rows {g : Gen} {n : ℕ} (hn : 0 < n) (h : ∀ j, g.normal n j ≠ ⟨0, 0⟩) (c : Circle) :
    c.random_points g n "on" = .ok (List.ofFn fun j : Fin n => (c.radius • g.normal n j) / vlength_ (g.normal n j) + c.center) := by
  unfold Circle.random_points
  rw [if_neg (by exact_mod_cast hn.not_ge), if_neg (by decide), if_pos rfl]
  show (do return rowsPlus (← runif_on_circle_ g n (fun _ => c.radius)) c.center) = _
  rw [on_circle_rows h]
  rfl

end UL

variable {Ω : Type*} [MeasurableSpace Ω] {Pr : Measure Ω}

/-- C121: the points of `Triangle.random_points` with `where="in"` are uniformly distributed in the triangle. -/
theorem C121_triangle_in (t : Triangle) (ht : ¬ Collinear t.A t.B t.C) (g : Ω → Gen) (n : ℕ) (hn : 0 < n) (j : Fin n)
    (hg : Pr.map (fun ω => ((g ω).rand n j, (g ω).rand' n j)) = unif01.prod unif01) :
    UniformOn (region (InClosedTriangle t.A t.B t.C)) (fun E => Pr {ω | RowIn (t.random_points (g ω) n "in") j E}) := by
  have hc : cross (t.C - t.B) (t.B - t.A) ≠ 0 := by
    intro h
    apply ht
    unfold Collinear
    unfold cross at h ⊢
    simp only [Pt.sub_x, Pt.sub_y] at h ⊢
    linear_combination -h
  have ha := UL.tri_area hc
  refine UL.uniformOn_of ?_ (by rw [ha]; finiteness) fun E hE => ?_
  · rw [ha]
    simp only [ne_eq, ENNReal.ofReal_eq_zero, not_le]
    have := abs_pos.2 hc
    linarith
  · rw [← UL.tri_law hc hE]
    congr 1
    refine UL.prob_eq hg (UL.prod_ne UL.unif01_ne UL.unif01_ne) (UL.tri_measurable _ _ _ hE) (Filter.Eventually.of_forall fun ω => ?_)
    have e : t.random_points (g ω) n "in" = .ok (List.ofFn (runif_in_triangle_ (g ω) n t.A t.B t.C)) := by
      unfold Triangle.random_points
      rw [if_neg (by exact_mod_cast hn.not_ge), if_pos rfl]
      rfl
    rw [mem_setOf_eq, e, UL.rowIn_ofFn]
    rfl

/-- C121: the points of `Circle.random_points` with `where="in"` are uniformly distributed in the disc. -/
theorem C121_circle_in (c : Circle) (hc : c.Valid) (g : Ω → Gen) (n : ℕ) (hn : 0 < n) (j : Fin n)
    (hg : ∀ i, Pr.map (fun ω => (coords ((g ω).normal n i), (g ω).rand n i)) = normal2.prod unif01) :
    UniformOn (region (InDisk c.center c.radius)) (fun E => Pr {ω | RowIn (c.random_points (g ω) n "in") j E}) := by
  have hr : 0 < c.radius := hc
  have hdet : c.radius * c.radius - 0 * 0 ≠ 0 := by nlinarith
  have hS : ∀ p, UL.lin c.radius 0 0 c.radius p + coords c.center ∈ region (InDisk c.center c.radius) ↔ p ∈ UL.disc := by
    intro p
    rw [UL.lin_apply]
    unfold region InDisk sqDist UL.disc coords
    simp only [Prod.mk_add_mk, mem_setOf_eq]
    rw [show (c.radius * p.1 + 0 * p.2 + c.center.x - c.center.x) ^ 2 + (0 * p.1 + c.radius * p.2 + c.center.y - c.center.y) ^ 2 =
      c.radius ^ 2 * (p.1 ^ 2 + p.2 ^ 2) by ring]
    constructor
    · intro h; exact le_of_mul_le_mul_left (by linarith) (by positivity : 0 < c.radius ^ 2)
    · intro h; nlinarith [sq_nonneg c.radius]
  have harea := UL.aff_area hdet (coords c.center) (region (InDisk c.center c.radius))
  rw [show {p | UL.lin c.radius 0 0 c.radius p + coords c.center ∈ region (InDisk c.center c.radius)} = UL.disc from by ext p; exact hS p, UL.disc_area] at harea
  have hpos := Real.pi_pos
  refine UL.uniformOn_of ?_ ?_ fun E hE => ?_
  · rw [← harea]
    have : 0 < |c.radius * c.radius - 0 * 0| := abs_pos.2 hdet
    simp [hpos, not_le, this, hr.ne']
  · rw [← harea]; finiteness
  · rw [← UL.aff_law (μ := normal2.prod unif01) (X := fun q => √q.2 • UL.unitv q.1) (fun E hE => by rw [UL.disc_area]; exact UL.disc_law hE) hdet
      (coords c.center) hS hE]
    congr 1
    have hm : Measurable fun q : (ℝ × ℝ) × ℝ => UL.lin c.radius 0 0 c.radius (√q.2 • UL.unitv q.1) + coords c.center := by
      have h1 := UL.unitv_measurable
      have h2 := UL.lin_measurable c.radius 0 0 c.radius
      exact (h2.comp (by fun_prop)).add_const _
    refine UL.prob_eq (hg j) (UL.prod_ne UL.normal2_ne UL.unif01_ne) (hm hE) ?_
    filter_upwards [UL.normal_ne fun i => UL.marginal i (hg i)] with ω hω
    rw [UL.circle_in_rows hn hω, UL.rowIn_ofFn]
    have e : coords (c.radius • ((√((g ω).rand n j) • (g ω).normal n j) / vlength_ ((g ω).normal n j)) + c.center) =
        UL.lin c.radius 0 0 c.radius (√((g ω).rand n j) • UL.unitv (coords ((g ω).normal n j))) + coords c.center := by
      rw [← UL.coords_unit, UL.lin_apply]
      unfold coords
      ext <;> simp
    rw [e]
    rfl

/-- C121: the points of `Circle.random_points` with `where="on"` are at a uniformly distributed angle of the circle. -/
theorem C121_circle_on (c : Circle) (g : Ω → Gen) (n : ℕ) (hn : 0 < n) (j : Fin n)
    (hg : ∀ i, Pr.map (fun ω => coords ((g ω).normal n i)) = normal2) :
    UniformParam (fun t => ⟨c.center.x + c.radius * Real.cos t, c.center.y + c.radius * Real.sin t⟩)
      (fun E => Pr {ω | RowIn (c.random_points (g ω) n "on") j E}) := by
  intro E hE
  have hm : Measurable fun p : ℝ × ℝ => c.radius • p + coords c.center := by fun_prop
  have h1 := UL.unit_law (hm hE)
  dsimp only
  rw [UL.prob_eq (hg j) UL.normal2_ne (UL.unitv_measurable (hm hE)) (ev := {ω | RowIn (c.random_points (g ω) n "on") j E}), h1, mul_comm, ENNReal.div_eq_inv_mul, mul_comm]
  · rw [one_div, ENNReal.ofReal_inv_of_pos (by positivity), mul_comm]
    have es : UL.angles ((fun p => c.radius • p + coords c.center) ⁻¹' E) 1 ∩ Ioo (-π) π =
        {t | t ∈ Ioo (-π) π ∧ coords ⟨c.center.x + c.radius * Real.cos t, c.center.y + c.radius * Real.sin t⟩ ∈ E} := by
      ext t
      unfold UL.angles coords
      simp [and_comm, add_comm]
    rw [es, mul_comm]
  · filter_upwards [UL.normal_ne hg] with ω hω
    rw [UL.circle_on_rows hn hω, UL.rowIn_ofFn]
    have e : coords ((c.radius • (g ω).normal n j) / vlength_ ((g ω).normal n j) + c.center) = c.radius • UL.unitv (coords ((g ω).normal n j)) + coords c.center := by
      rw [← UL.coords_unit]
      rfl
    rw [e]
    rfl

namespace UL

theorem unif_ne {L : ℝ} (h : 0 < L) : unif 0 L ≠ 0 := by
  intro h0
  have : unif 0 L univ = 1 := by
    unfold unif
    rw [Measure.smul_apply, Measure.restrict_apply MeasurableSet.univ, univ_inter, Real.volume_Ico, smul_eq_mul, ← ENNReal.ofReal_mul (by simp [h.le]),
      one_div, inv_mul_cancel₀ (by linarith)]
    simp
  rw [h0] at this
  simp at this

/-- The point of the edges at distance `u` from the first vertex along the boundary. -/
noncomputable def edge (A B C : Pt) (l1 l2 l3 u : ℝ) : ℝ × ℝ :=
  if u ≤ l1 then coords (A + ((u - 0) / l1) • (B - A))
  else if u ≤ l1 + l2 then coords (B + ((u - l1) / l2) • (C - B))
  else coords (C + ((u - (l1 + l2)) / l3) • (A - C))

theorem edge_measurable (A B C : Pt) (l1 l2 l3 : ℝ) : Measurable (edge A B C l1 l2 l3) := by
  unfold edge coords
  refine Measurable.ite measurableSet_Iic ?_ (Measurable.ite measurableSet_Iic ?_ ?_) <;>
  · simp only [Pt.add_x, Pt.add_y, Pt.smul_x, Pt.smul_y]
    fun_prop

theorem edge_row (A B C : Pt) (h1 : distance_ A B ≠ 0) (h2 : distance_ B C ≠ 0) (h3 : distance_ C A ≠ 0) (u : ℝ) :
    ∃ Q, onTriangleRow A B C u = .ok Q ∧ coords Q = edge A B C (distance_ A B) (distance_ B C) (distance_ C A) u := by
  unfold onTriangleRow edge npDiv
  dsimp only
  rw [if_neg h1, if_neg h1, if_neg h2, if_neg h2, if_neg h3, if_neg h3]
  split_ifs with c1 c2
  all_goals
    refine ⟨_, rfl, ?_⟩
    unfold coords
    ext <;> simp only [Pt.add_x, Pt.add_y, Pt.smul_x, Pt.smul_y, Pt.sub_x, Pt.sub_y] <;> field_simp <;> ring

theorem mapM_rows {α β : Type} {f : α → Res β} (h : ∀ a, ∃ b, f a = .ok b) (l : List α) :
    ∃ l', l.mapM f = .ok l' ∧ l'.length = l.length ∧ ∀ (j : ℕ) a, l[j]? = some a → ∃ b, l'[j]? = some b ∧ f a = .ok b := by
  induction l with
  | nil => exact ⟨[], rfl, rfl, by simp⟩
  | cons a l ih =>
    obtain ⟨l', h1, h2, h3⟩ := ih
    obtain ⟨b, hb⟩ := h a
    refine ⟨b :: l', ?_, by simp [h2], ?_⟩
    · rw [List.mapM_cons, hb, h1]; rfl
    · intro j c hj
      cases j with
      | zero =>
        simp only [List.getElem?_cons_zero, Option.some.injEq] at hj ⊢
        subst hj
        exact ⟨b, rfl, hb⟩
      | succ j => simpa using h3 j c (by simpa using hj)

theorem triangle_on_rows {g : Gen} {n : ℕ} (hn : 0 < n) (t : Triangle) (h1 : distance_ t.A t.B ≠ 0) (h2 : distance_ t.B t.C ≠ 0)
    (h3 : distance_ t.C t.A ≠ 0) (j : Fin n) (E : Set (ℝ × ℝ)) :
    RowIn (t.random_points g n "on") j E ↔
      edge t.A t.B t.C (distance_ t.A t.B) (distance_ t.B t.C) (distance_ t.C t.A)
        (g.uniform 0 (distance_ t.A t.B + distance_ t.B t.C + distance_ t.C t.A) n j) ∈ E := by
  have e : t.random_points g n "on" = runif_on_triangle_ g n t.A t.B t.C := by
    unfold Triangle.random_points
    rw [if_neg (by exact_mod_cast hn.not_ge), if_neg (by decide), if_pos rfl]
    rfl
  obtain ⟨l', k1, k2, k3⟩ := mapM_rows (f := onTriangleRow t.A t.B t.C) (fun u => (edge_row t.A t.B t.C h1 h2 h3 u).imp fun _ h => h.1)
    (List.ofFn (g.uniform 0 (distance_ t.A t.B + distance_ t.B t.C + distance_ t.C t.A) n))
  obtain ⟨b, k4, k5⟩ := k3 j (g.uniform 0 (distance_ t.A t.B + distance_ t.B t.C + distance_ t.C t.A) n j) (by
    rw [List.getElem?_ofFn, dif_pos j.2])
  obtain ⟨Q, k6, k7⟩ := edge_row t.A t.B t.C h1 h2 h3 (g.uniform 0 (distance_ t.A t.B + distance_ t.B t.C + distance_ t.C t.A) n j)
  rw [k5] at k6
  obtain rfl := Except.ok.inj k6
  rw [e, show runif_on_triangle_ g n t.A t.B t.C = .ok l' from k1, ← k7]
  constructor
  · rintro ⟨l, P, m1, m2, m3⟩
    obtain rfl := Except.ok.inj m1
    rw [k4, Option.some.injEq] at m2
    rwa [m2]
  · exact fun h => ⟨l', b, rfl, k4, h⟩

theorem distance_eq (A B : Pt) : distance_ A B = Spec.dist A B := by
  unfold distance_ Spec.dist sqDist vlength_
  congr 1
  simp only [Pt.sub_x, Pt.sub_y]
  ring

theorem edges_law (A B C : Pt) {l1 l2 l3 : ℝ} (e1 : l1 = Spec.dist A B) (e2 : l2 = Spec.dist B C) (e3 : l3 = Spec.dist C A) (h1 : 0 < l1) (h2 : 0 < l2)
    (h3 : 0 < l3) {E : Set (ℝ × ℝ)} (hE : MeasurableSet E) :
    volume (edge A B C l1 l2 l3 ⁻¹' E ∩ Ioc 0 (l1 + l2 + l3)) = lengthIn A B E + lengthIn B C E + lengthIn C A E := by
  have hm := edge_measurable A B C l1 l2 l3 hE
  rw [← seg_law A B 0 e1 h1 E, ← seg_law B C l1 e2 h2 E, ← seg_law C A (l1 + l2) e3 h3 E]
  have p1 : {u : ℝ | u ∈ Ioc 0 (0 + l1) ∧ coords (A + ((u - 0) / l1) • (B - A)) ∈ E} = edge A B C l1 l2 l3 ⁻¹' E ∩ Ioc 0 l1 := by
    ext u
    simp only [mem_setOf_eq, mem_inter_iff, mem_preimage, mem_Ioc, zero_add]
    rw [and_comm]
    refine and_congr_left fun h => ?_
    unfold edge
    rw [if_pos h.2]
  have p2 : {u : ℝ | u ∈ Ioc l1 (l1 + l2) ∧ coords (B + ((u - l1) / l2) • (C - B)) ∈ E} = edge A B C l1 l2 l3 ⁻¹' E ∩ Ioc l1 (l1 + l2) := by
    ext u
    simp only [mem_setOf_eq, mem_inter_iff, mem_preimage, mem_Ioc]
    rw [and_comm]
    refine and_congr_left fun h => ?_
    unfold edge
    rw [if_neg (not_le.2 h.1), if_pos h.2]
  have p3 : {u : ℝ | u ∈ Ioc (l1 + l2) (l1 + l2 + l3) ∧ coords (C + ((u - (l1 + l2)) / l3) • (A - C)) ∈ E} =
      edge A B C l1 l2 l3 ⁻¹' E ∩ Ioc (l1 + l2) (l1 + l2 + l3) := by
    ext u
    simp only [mem_setOf_eq, mem_inter_iff, mem_preimage, mem_Ioc]
    rw [and_comm]
    refine and_congr_left fun h => ?_
    unfold edge
    rw [if_neg (not_le.2 (by linarith [h.1])), if_neg (not_le.2 h.1)]
  rw [p1, p2, p3, ← Ioc_union_Ioc_eq_Ioc (show 0 ≤ l1 + l2 by linarith) (show l1 + l2 ≤ l1 + l2 + l3 by linarith),
    ← Ioc_union_Ioc_eq_Ioc h1.le (show l1 ≤ l1 + l2 by linarith), inter_union_distrib_left, inter_union_distrib_left,
    measure_union _ (hm.inter measurableSet_Ioc), measure_union _ (hm.inter measurableSet_Ioc)]
  · rw [Set.disjoint_left]
    rintro u ⟨-, h⟩ ⟨-, h'⟩
    exact absurd h.2 (not_le.2 h'.1)
  · rw [Set.disjoint_left]
    rintro u (⟨-, h⟩ | ⟨-, h⟩) ⟨-, h'⟩
    · linarith [h.2, h'.1]
    · linarith [h.2, h'.1]

end UL

/-- C121: the points of `Triangle.random_points` with `where="on"` are uniformly distributed on the three edges. -/
theorem C121_triangle_on (t : Triangle) (h1 : t.A ≠ t.B) (h2 : t.B ≠ t.C) (h3 : t.C ≠ t.A) (g : Ω → Gen) (n : ℕ) (hn : 0 < n) (j : Fin n)
    (hg : ∀ L, 0 < L → Pr.map (fun ω => (g ω).uniform 0 L n j) = unif 0 L) :
    UniformOnEdges t.A t.B t.C (fun E => Pr {ω | RowIn (t.random_points (g ω) n "on") j E}) := by
  intro E hE
  have k : ∀ {A B : Pt}, A ≠ B → 0 < distance_ A B := by
    intro A B h
    rw [UL.distance_eq]
    exact dist_pos_of_ne h
  have k1 := k h1
  have k2 := k h2
  have k3 := k h3
  have hL := UL.edges_law t.A t.B t.C (UL.distance_eq _ _) (UL.distance_eq _ _) (UL.distance_eq _ _) k1 k2 k3 hE
  have hL0 : 0 < distance_ t.A t.B + distance_ t.B t.C + distance_ t.C t.A := by linarith
  rw [← hL]
  simp only [← UL.distance_eq]
  have hm := UL.edge_measurable t.A t.B t.C (distance_ t.A t.B) (distance_ t.B t.C) (distance_ t.C t.A) hE
  rw [UL.prob_eq (ev := {ω | RowIn (t.random_points (g ω) n "on") j E}) (hg _ hL0) (UL.unif_ne hL0) hm (Filter.Eventually.of_forall fun ω => UL.triangle_on_rows hn t k1.ne' k2.ne' k3.ne' j E)]
  unfold unif
  rw [Measure.smul_apply, restrict_Ico_eq_restrict_Ioc, Measure.restrict_apply hm, smul_eq_mul, sub_zero, one_div, ENNReal.ofReal_inv_of_pos hL0, mul_comm]
  rfl

namespace UL

/-- The sampler of the ellipse is an affine map applied to the sampler of the unit disc. -/
theorem ellipse_frame {e : Ellipse} (he : e.Valid) : ∃ S L, ∃ a b c d : ℝ, e.shape_matrix = .ok S ∧ cholesky2 S = .ok L ∧ a * d - b * c ≠ 0 ∧
    (∀ (n : ℕ) (X : Fin n → Pt), solveCols L.transpose n X = .ok fun j => ⟨a * (X j).x + b * (X j).y, c * (X j).x + d * (X j).y⟩) ∧
    (∀ x y : ℝ, quadForm S ⟨a * x + b * y, c * x + d * y⟩ = x ^ 2 + y ^ 2) ∧
    (∀ P, OnE e P ↔ quadForm S (P - e.center) = 1) ∧
    ∀ P, InEllipse e.center e.rmajor e.rminor e.rad P ↔ quadForm S (P - e.center) ≤ 1 := by
  obtain ⟨S, hS, hpd, hon⟩ := C65_shape_matrix e he
  obtain ⟨L, hL, hdet, hLq⟩ := cholesky2_spec hpd
  have hinv : Matrix.det (L.transpose⁻¹) ≠ 0 := by
    rw [Matrix.det_nonsing_inv, Ring.inverse_eq_inv']
    exact inv_ne_zero hdet
  refine ⟨S, L, L.transpose⁻¹ 0 0, L.transpose⁻¹ 0 1, L.transpose⁻¹ 1 0, L.transpose⁻¹ 1 1, hS, hL, by rwa [← Matrix.det_fin_two], ?_, ?_, hon,
    inEllipse_quadForm he hpd hon⟩
  · intro n X
    unfold solveCols
    rw [if_neg hdet]
    congr 1
    funext j
    ext <;> simp [Matrix.mulVec, dotProduct, Fin.sum_univ_two]
  · intro x y
    refine hLq _ ⟨x, y⟩ ?_
    have e1 : (![L.transpose⁻¹ 0 0 * x + L.transpose⁻¹ 0 1 * y, L.transpose⁻¹ 1 0 * x + L.transpose⁻¹ 1 1 * y] : Fin 2 → ℝ) = L.transpose⁻¹.mulVec ![x, y] := by
      ext i
      fin_cases i <;> simp [Matrix.mulVec, dotProduct, Fin.sum_univ_two]
    dsimp only
    rw [e1, Matrix.mulVec_mulVec, Matrix.mul_nonsing_inv _ (isUnit_iff_ne_zero.2 hdet), Matrix.one_mulVec]

theorem ellipse_in_rows {e : Ellipse} {S L : Matrix (Fin 2) (Fin 2) ℝ} {a b c d : ℝ} (hS : e.shape_matrix = .ok S) (hL : cholesky2 S = .ok L)
    (hX : ∀ (n : ℕ) (X : Fin n → Pt), solveCols L.transpose n X = .ok fun j => ⟨a * (X j).x + b * (X j).y, c * (X j).x + d * (X j).y⟩)
    {g : Gen} {n : ℕ} (hn : 0 < n) (h : ∀ j, g.normal n j ≠ ⟨0, 0⟩) (j : Fin n) (E : Set (ℝ × ℝ)) :
    RowIn (e.random_points g n "in") j E ↔ lin a b c d (√(g.rand n j) • unitv (coords (g.normal n j))) + coords e.center ∈ E := by
  unfold Ellipse.random_points
  rw [if_neg (by exact_mod_cast hn.not_ge), hS, Res.ok_bind, if_pos rfl]
  change RowIn (do return rowsPlus (← runif_in_ellipse_ g n S) e.center) j E ↔ _
  unfold runif_in_ellipse_ runif_in_circle_
  simp only [hL, Res.ok_bind, on_circle_rows h, pure_bind, hX]
  refine (rowIn_ofFn _ j E).trans ?_
  rw [← coords_unit, lin_apply]
  unfold coords
  simp

theorem ellipse_on_rows {e : Ellipse} {S L : Matrix (Fin 2) (Fin 2) ℝ} {a b c d : ℝ} (hS : e.shape_matrix = .ok S) (hL : cholesky2 S = .ok L)
    (hX : ∀ (n : ℕ) (X : Fin n → Pt), solveCols L.transpose n X = .ok fun j => ⟨a * (X j).x + b * (X j).y, c * (X j).x + d * (X j).y⟩)
    {g : Gen} {n : ℕ} (hn : 0 < n) (h : ∀ j, g.normal n j ≠ ⟨0, 0⟩) (j : Fin n) (E : Set (ℝ × ℝ)) :
    RowIn (e.random_points g n "on") j E ↔ lin a b c d (unitv (coords (g.normal n j))) + coords e.center ∈ E := by
  unfold Ellipse.random_points
  rw [if_neg (by exact_mod_cast hn.not_ge), hS, Res.ok_bind, if_neg (by decide), if_pos rfl]
  change RowIn (do return rowsPlus (← runif_on_ellipse_ g n S) e.center) j E ↔ _
  unfold runif_on_ellipse_
  simp only [hL, Res.ok_bind, on_circle_rows h, hX]
  refine (rowIn_ofFn _ j E).trans ?_
  rw [← one_smul ℝ (unitv _), ← coords_unit, lin_apply]
  unfold coords
  simp

/-- The change of frame between the two parametrisations of the ellipse is orthogonal. -/
theorem ellipse_orth {e : Ellipse} {S : Matrix (Fin 2) (Fin 2) ℝ} {a b c d : ℝ} (h0 : a * d - b * c ≠ 0)
    (hq : ∀ x y : ℝ, quadForm S ⟨a * x + b * y, c * x + d * y⟩ = x ^ 2 + y ^ 2) (hon : ∀ P, OnE e P ↔ quadForm S (P - e.center) = 1) :
    ∃ p q r s : ℝ, p ^ 2 + r ^ 2 = 1 ∧ q ^ 2 + s ^ 2 = 1 ∧ p * q + r * s = 0 ∧
      ∀ t, lin a b c d (lin p q r s (Real.cos t, Real.sin t)) + coords e.center = coords (ellipsePoint e.center e.rmajor e.rminor e.rad t) := by
  obtain ⟨D, hD⟩ : ∃ D, D = a * d - b * c := ⟨_, rfl⟩
  have hD0 : D ≠ 0 := by rw [hD]; exact h0
  obtain ⟨k, hk⟩ : ∃ k, k = Real.cos e.rad := ⟨_, rfl⟩
  obtain ⟨m, hm⟩ : ∃ m, m = Real.sin e.rad := ⟨_, rfl⟩
  obtain ⟨A, hA⟩ : ∃ A, A = e.rmajor := ⟨_, rfl⟩
  obtain ⟨B, hB⟩ : ∃ B, B = e.rminor := ⟨_, rfl⟩
  have key : ∀ x y : ℝ, a * ((d * (A * k) - b * (A * m)) / D * x + (d * (-B * m) - b * (B * k)) / D * y) +
      b * ((a * (A * m) - c * (A * k)) / D * x + (a * (B * k) - c * (-B * m)) / D * y) = A * k * x - B * m * y := by
    intro x y
    field_simp
    rw [hD]; ring
  have key' : ∀ x y : ℝ, c * ((d * (A * k) - b * (A * m)) / D * x + (d * (-B * m) - b * (B * k)) / D * y) +
      d * ((a * (A * m) - c * (A * k)) / D * x + (a * (B * k) - c * (-B * m)) / D * y) = A * m * x + B * k * y := by
    intro x y
    field_simp
    rw [hD]; ring
  have hpt : ∀ t, ellipsePoint e.center e.rmajor e.rminor e.rad t - e.center =
      ⟨A * k * Real.cos t - B * m * Real.sin t, A * m * Real.cos t + B * k * Real.sin t⟩ := by
    intro t
    unfold ellipsePoint
    rw [hA, hB, hk, hm]
    ext <;> simp <;> ring
  generalize (d * (A * k) - b * (A * m)) / D = p at key key'
  generalize (d * (-B * m) - b * (B * k)) / D = q at key key'
  generalize (a * (A * m) - c * (A * k)) / D = r at key key'
  generalize (a * (B * k) - c * (-B * m)) / D = s at key key'
  have hu : ∀ t, (p * Real.cos t + q * Real.sin t) ^ 2 + (r * Real.cos t + s * Real.sin t) ^ 2 = 1 := by
    intro t
    rw [← hq, key, key', ← hpt, ← hon]
    exact ⟨t, rfl⟩
  have u0 := hu 0
  have u1 := hu (π / 2)
  have u2 := hu (π / 4)
  rw [Real.cos_zero, Real.sin_zero] at u0
  rw [Real.cos_pi_div_two, Real.sin_pi_div_two] at u1
  rw [Real.cos_pi_div_four, Real.sin_pi_div_four] at u2
  have hs2 : √(2 : ℝ) ^ 2 = 2 := Real.sq_sqrt (by norm_num)
  refine ⟨p, q, r, s, by linarith, by linarith, ?_, fun t => ?_⟩
  · have e1 : (p * (√2 / 2) + q * (√2 / 2)) ^ 2 + (r * (√2 / 2) + s * (√2 / 2)) ^ 2 = √(2 : ℝ) ^ 2 / 4 * (p ^ 2 + r ^ 2 + (q ^ 2 + s ^ 2) + 2 * (p * q + r * s)) := by ring
    rw [e1, hs2] at u2
    linarith
  · rw [lin_apply, lin_apply]
    have h1 := congrArg Pt.x (hpt t)
    have h2 := congrArg Pt.y (hpt t)
    simp only [Pt.sub_x, Pt.sub_y] at h1 h2
    have k1 := key (Real.cos t) (Real.sin t)
    have k2 := key' (Real.cos t) (Real.sin t)
    unfold coords
    ext
    · dsimp only [Prod.mk_add_mk]; linarith
    · dsimp only [Prod.mk_add_mk]; linarith

end UL

/-- C121: the points of `Ellipse.random_points` with `where="in"` are uniformly distributed in the region of the ellipse. -/
theorem C121_ellipse_in (e : Ellipse) (he : e.Valid) (g : Ω → Gen) (n : ℕ) (hn : 0 < n) (j : Fin n)
    (hg : ∀ i, Pr.map (fun ω => (coords ((g ω).normal n i), (g ω).rand n i)) = normal2.prod unif01) :
    UniformOn (region (InEllipse e.center e.rmajor e.rminor e.rad)) (fun E => Pr {ω | RowIn (e.random_points (g ω) n "in") j E}) := by
  obtain ⟨S, L, a, b, c, d, hS, hL, hdet, hX, hq, hon, hin⟩ := UL.ellipse_frame he
  have hR : ∀ p, UL.lin a b c d p + coords e.center ∈ region (InEllipse e.center e.rmajor e.rminor e.rad) ↔ p ∈ UL.disc := by
    intro p
    rw [UL.lin_apply]
    unfold region UL.disc coords
    simp only [Prod.mk_add_mk, mem_setOf_eq]
    rw [hin, ← hq]
    rw [show ((⟨a * p.1 + b * p.2 + e.center.x, c * p.1 + d * p.2 + e.center.y⟩ : Pt) - e.center) = ⟨a * p.1 + b * p.2, c * p.1 + d * p.2⟩ by
      ext <;> simp]
  have harea := UL.aff_area hdet (coords e.center) (region (InEllipse e.center e.rmajor e.rminor e.rad))
  rw [show {p | UL.lin a b c d p + coords e.center ∈ region (InEllipse e.center e.rmajor e.rminor e.rad)} = UL.disc from by ext p; exact hR p,
    UL.disc_area] at harea
  have hpos := Real.pi_pos
  refine UL.uniformOn_of ?_ ?_ fun E hE => ?_
  · rw [← harea]
    have : 0 < |a * d - b * c| := abs_pos.2 hdet
    simp [hpos, not_le, this, hdet]
  · rw [← harea]; finiteness
  · rw [← UL.aff_law (μ := normal2.prod unif01) (X := fun q => √q.2 • UL.unitv q.1) (fun E hE => by rw [UL.disc_area]; exact UL.disc_law hE) hdet
      (coords e.center) hR hE]
    congr 1
    have hm : Measurable fun q : (ℝ × ℝ) × ℝ => UL.lin a b c d (√q.2 • UL.unitv q.1) + coords e.center := by
      have h1 := UL.unitv_measurable
      have h2 := UL.lin_measurable a b c d
      exact (h2.comp (by fun_prop)).add_const _
    refine UL.prob_eq (hg j) (UL.prod_ne UL.normal2_ne UL.unif01_ne) (hm hE) ?_
    filter_upwards [UL.normal_ne fun i => UL.marginal i (hg i)] with ω hω
    exact UL.ellipse_in_rows hS hL hX hn hω j E

/-- C121: the points of `Ellipse.random_points` with `where="on"` are at a uniformly distributed eccentric angle. -/
theorem C121_ellipse_on (e : Ellipse) (he : e.Valid) (g : Ω → Gen) (n : ℕ) (hn : 0 < n) (j : Fin n)
    (hg : ∀ i, Pr.map (fun ω => coords ((g ω).normal n i)) = normal2) :
    UniformParam (ellipsePoint e.center e.rmajor e.rminor e.rad) (fun E => Pr {ω | RowIn (e.random_points (g ω) n "on") j E}) := by
  intro E hE
  obtain ⟨S, L, a, b, c, d, hS, hL, hdet, hX, hq, hon, hin⟩ := UL.ellipse_frame he
  obtain ⟨p, q, r, s, o1, o2, o3, ho⟩ := UL.ellipse_orth hdet hq hon
  have hm : Measurable fun p : ℝ × ℝ => UL.lin a b c d p + coords e.center := (UL.lin_measurable a b c d).add_const _
  have h1 := UL.unit_law_orth o1 o2 o3 (hm hE)
  dsimp only
  rw [UL.prob_eq (hg j) UL.normal2_ne (UL.unitv_measurable (hm hE)) (ev := {ω | RowIn (e.random_points (g ω) n "on") j E}), h1, one_div,
    ENNReal.ofReal_inv_of_pos (by positivity), ENNReal.div_eq_inv_mul]
  · have es : UL.angles (UL.lin p q r s ⁻¹' ((fun p => UL.lin a b c d p + coords e.center) ⁻¹' E)) 1 ∩ Ioo (-π) π =
        {t | t ∈ Ioo (-π) π ∧ coords (ellipsePoint e.center e.rmajor e.rminor e.rad t) ∈ E} := by
      ext t
      unfold UL.angles
      simp only [one_mul, mem_inter_iff, mem_setOf_eq, mem_preimage, ho, and_comm]
    rw [es]
  · filter_upwards [UL.normal_ne hg] with ω hω
    exact UL.ellipse_on_rows hS hL hX hn hω j E

/-- C121: the rows drawn by `Triangle.random_points` are independent if the draws are. -/
theorem C121_triangle_independent (t : Triangle) (g : Ω → Gen) (n : ℕ) (hn : 0 < n) :
    (ProbabilityTheory.iIndepFun (fun j ω => ((g ω).rand n j, (g ω).rand' n j)) Pr → IndepRows Pr (fun ω => t.random_points (g ω) n "in") n) ∧
    (t.A ≠ t.B → t.B ≠ t.C → t.C ≠ t.A → (∀ L, ProbabilityTheory.iIndepFun (fun j ω => (g ω).uniform 0 L n j) Pr) →
      IndepRows Pr (fun ω => t.random_points (g ω) n "on") n) := by
  constructor
  · intro h
    refine UL.indep_rows h (F := UL.tri t.A t.B t.C) (fun E hE => UL.tri_measurable _ _ _ hE) (Filter.Eventually.of_forall fun ω j E => ?_)
    have e : t.random_points (g ω) n "in" = .ok (List.ofFn (runif_in_triangle_ (g ω) n t.A t.B t.C)) := by
      unfold Triangle.random_points
      rw [if_neg (by exact_mod_cast hn.not_ge), if_pos rfl]
      rfl
    rw [e, UL.rowIn_ofFn]
    rfl
  · intro h1 h2 h3 h
    have k : ∀ {A B : Pt}, A ≠ B → distance_ A B ≠ 0 := by
      intro A B h
      rw [UL.distance_eq]
      exact (dist_pos_of_ne h).ne'
    exact UL.indep_rows (h _) (UL.edge_measurable t.A t.B t.C _ _ _) (Filter.Eventually.of_forall fun ω j E => UL.triangle_on_rows hn t (k h1) (k h2) (k h3) j E)

/-- C121: the rows drawn by `Circle.random_points` are independent if the draws are. -/
theorem C121_circle_independent (c : Circle) (g : Ω → Gen) (n : ℕ) (hn : 0 < n) (hg : ∀ i, Pr.map (fun ω => coords ((g ω).normal n i)) = normal2) :
    (ProbabilityTheory.iIndepFun (fun j ω => (coords ((g ω).normal n j), (g ω).rand n j)) Pr → IndepRows Pr (fun ω => c.random_points (g ω) n "in") n) ∧
    (ProbabilityTheory.iIndepFun (fun j ω => coords ((g ω).normal n j)) Pr → IndepRows Pr (fun ω => c.random_points (g ω) n "on") n) := by
  have h1 := UL.unitv_measurable
  constructor
  · intro h
    refine UL.indep_rows h (F := fun q => c.radius • (√q.2 • UL.unitv q.1) + coords c.center) (by fun_prop) ?_
    filter_upwards [UL.normal_ne hg] with ω hω j E
    rw [UL.circle_in_rows hn hω, UL.rowIn_ofFn, ← UL.coords_unit]
    rfl
  · intro h
    refine UL.indep_rows h (F := fun q => c.radius • UL.unitv q + coords c.center) (by fun_prop) ?_
    filter_upwards [UL.normal_ne hg] with ω hω j E
    rw [UL.circle_on_rows hn hω, UL.rowIn_ofFn, ← UL.coords_unit]
    rfl

/-- C121: the rows drawn by `Ellipse.random_points` are independent if the draws are. -/
theorem C121_ellipse_independent (e : Ellipse) (he : e.Valid) (g : Ω → Gen) (n : ℕ) (hn : 0 < n)
    (hg : ∀ i, Pr.map (fun ω => coords ((g ω).normal n i)) = normal2) :
    (ProbabilityTheory.iIndepFun (fun j ω => (coords ((g ω).normal n j), (g ω).rand n j)) Pr → IndepRows Pr (fun ω => e.random_points (g ω) n "in") n) ∧
    (ProbabilityTheory.iIndepFun (fun j ω => coords ((g ω).normal n j)) Pr → IndepRows Pr (fun ω => e.random_points (g ω) n "on") n) := by
  obtain ⟨S, L, a, b, c, d, hS, hL, -, hX, -, -, -⟩ := UL.ellipse_frame he
  have h1 := UL.unitv_measurable
  have h2 := UL.lin_measurable a b c d
  constructor
  · intro h
    refine UL.indep_rows h (F := fun q => UL.lin a b c d (√q.2 • UL.unitv q.1) + coords e.center) ((h2.comp (by fun_prop)).add_const _) ?_
    filter_upwards [UL.normal_ne hg] with ω hω j E
    exact UL.ellipse_in_rows hS hL hX hn hω j E
  · intro h
    refine UL.indep_rows h (F := fun q => UL.lin a b c d (UL.unitv q) + coords e.center) ((h2.comp h1).add_const _) ?_
    filter_upwards [UL.normal_ne hg] with ω hω j E
    exact UL.ellipse_on_rows hS hL hX hn hω j E
