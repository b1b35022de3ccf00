import Verif.Model.PyVal
import Verif.Lemmas.Basic

/-!
# C01: validation of the arguments, and what the constructors store
-/

open Classical

namespace Spec

/-- A value of a real (non-complex) number type. -/
def RealNumber (v : PyVal) : Prop := ∃ k x, v = .num k x

/-- A tuple, a list or a one-dimensional array with exactly two entries, both of a real number type. -/
def PointLike (v : PyVal) : Prop :=
  ∃ a b, RealNumber a ∧ RealNumber b ∧ (v = .tuple [a, b] ∨ v = .list [a, b] ∨ v = .ndarray [2] [a, b])

/-- The entries of the value are not numpy complex scalars of a type other than `np.complex128`. -/
def NoNpComplex : PyVal → Prop
  | .tuple l => ∀ z, PyVal.npComplex z ∉ l
  | .list l => ∀ z, PyVal.npComplex z ∉ l
  | .ndarray _ data => ∀ z, PyVal.npComplex z ∉ data
  | _ => True

/-- A Python value that can be an argument: its arrays are well formed, without the numpy complex scalars. -/
def Arg (v : PyVal) : Prop := v.Wf ∧ NoNpComplex v

/-- The value is the point with the real coordinates of `P`: the spec of a finite point argument. -/
def DenotesPoint (v : PyVal) (P : Pt) : Prop :=
  ∃ j k, v = .tuple [.num j (.fin P.x), .num k (.fin P.y)] ∨ v = .list [.num j (.fin P.x), .num k (.fin P.y)] ∨
    v = .ndarray [2] [.num j (.fin P.x), .num k (.fin P.y)]

end Spec

open Spec

theorem is_number_iff (v : PyVal) (h : ∀ z, v ≠ .npComplex z) : v.is_number_ = true ↔ RealNumber v := by
  cases v <;> simp [PyVal.is_number_, PyVal.isNumber, PyVal.isComplex, RealNumber] at h ⊢

theorem isPoint_two (a b : PyVal) (mk : List PyVal → PyVal)
    (hmk : mk = .tuple ∨ mk = .list ∨ mk = .ndarray [2]) :
    (mk [a, b]).is_point_ = .ok (a.is_number_ && b.is_number_) := by
  rcases hmk with h | h | h <;> subst h <;>
    (simp only [PyVal.is_point_, PyVal.is_vector_, PyVal.len, PyVal.item]
     cases ha : a.is_number_ <;> simp [bind, Except.bind, ha])

/-- `is_point_` never raises. -/
theorem isPoint_total (v : PyVal) (h : v.Wf) : ∃ b, v.is_point_ = .ok b := by
  have key : ∀ l : List PyVal, ∀ mk : List PyVal → PyVal, (mk = .tuple ∨ mk = .list) → ∃ b, (mk l).is_point_ = .ok b := by
    intro l mk hmk
    by_cases hl : l.length = 2
    · obtain ⟨a, b, rfl⟩ := List.length_eq_two.1 hl
      exact ⟨_, isPoint_two a b mk (by tauto)⟩
    · refine ⟨false, ?_⟩
      rcases hmk with h | h <;> subst h <;>
        simp [PyVal.is_point_, PyVal.is_vector_, PyVal.len, bind, Except.bind, hl]
  cases v with
  | tuple l => exact key l _ (Or.inl rfl)
  | list l => exact key l _ (Or.inr rfl)
  | ndarray shape data =>
    by_cases hs : shape.length = 1
    · obtain ⟨n, rfl⟩ := List.length_eq_one_iff.1 hs
      have hd : data.length = n := by simpa [PyVal.Wf] using h
      by_cases hn : n = 2
      · subst hn
        obtain ⟨a, b, rfl⟩ := List.length_eq_two.1 hd
        exact ⟨_, isPoint_two a b (.ndarray [2]) (by tauto)⟩
      · exact ⟨false, by simp [PyVal.is_point_, PyVal.is_vector_, PyVal.len, bind, Except.bind, hn]⟩
    · exact ⟨false, by simp [PyVal.is_point_, PyVal.is_vector_, hs]⟩
  | _ => exact ⟨false, by simp [PyVal.is_point_, PyVal.is_vector_]⟩

/-- C01: `is_point_` accepts exactly the tuples, lists and one-dimensional arrays with two real numbers. -/
theorem C01_is_point (v : PyVal) (h : Arg v) : v.is_point_ = .ok true ↔ PointLike v := by
  obtain ⟨hw, hc⟩ := h
  constructor
  · intro hp
    have key : ∀ l : List PyVal, ∀ mk : List PyVal → PyVal, (mk = .tuple ∨ mk = .list ∨ mk = .ndarray [2]) → l.length = 2 →
        (∀ z, PyVal.npComplex z ∉ l) → (mk l).is_point_ = .ok true → PointLike (mk l) := by
      intro l mk hmk hl hz hp
      obtain ⟨a, b, rfl⟩ := List.length_eq_two.1 hl
      rw [isPoint_two a b mk hmk] at hp
      have hp' : (a.is_number_ && b.is_number_) = true := by injection hp
      obtain ⟨h1, h2⟩ := by simpa using hp'
      refine ⟨a, b, (is_number_iff a ?_).1 h1, (is_number_iff b ?_).1 h2, ?_⟩
      · intro z hz'; subst hz'; exact hz z (by simp)
      · intro z hz'; subst hz'; exact hz z (by simp)
      · rcases hmk with h | h | h <;> subst h <;> tauto
    have len2 : ∀ l : List PyVal, ∀ mk : List PyVal → PyVal, (mk = .tuple ∨ mk = .list) → (mk l).is_point_ = .ok true →
        l.length = 2 := by
      intro l mk hmk hp
      by_contra hl
      rcases hmk with h | h <;> subst h <;>
        simp [PyVal.is_point_, PyVal.is_vector_, PyVal.len, bind, Except.bind, hl] at hp
    cases v with
    | tuple l => exact key l _ (Or.inl rfl) (len2 l _ (Or.inl rfl) hp) hc hp
    | list l => exact key l _ (Or.inr (Or.inl rfl)) (len2 l _ (Or.inr rfl) hp) hc hp
    | ndarray shape data =>
      have hs : shape.length = 1 := by
        by_contra hs
        simp [PyVal.is_point_, PyVal.is_vector_, hs] at hp
      obtain ⟨n, rfl⟩ := List.length_eq_one_iff.1 hs
      have hd : data.length = n := by simpa [PyVal.Wf] using hw
      have hn : n = 2 := by
        by_contra hn
        simp [PyVal.is_point_, PyVal.is_vector_, PyVal.len, bind, Except.bind, hn] at hp
      subst hn
      exact key data _ (Or.inr (Or.inr rfl)) hd hc hp
    | _ => simp [PyVal.is_point_, PyVal.is_vector_] at hp
  · rintro ⟨a, b, ha, hb, h⟩
    obtain ⟨j, x, rfl⟩ := ha
    obtain ⟨k, y, rfl⟩ := hb
    rcases h with h | h | h <;> subst h <;> rw [isPoint_two _ _ _ (by tauto)] <;>
      simp [PyVal.is_number_, PyVal.isNumber, PyVal.isComplex]

theorem eip_reject (key : String) (v : PyVal) (h : Arg v) (hv : ¬ PointLike v) :
    error_if_not_point_ key v = .error (.valueError ("`" ++ key ++ "` is not a point.")) := by
  obtain ⟨b, hb⟩ := isPoint_total v h.1
  have : b = false := by
    cases b
    · rfl
    · exact absurd ((C01_is_point v h).1 hb) hv
  subst this
  simp [error_if_not_point_, hb, bind, Except.bind]

theorem eiv_reject (key : String) (v : PyVal) (h : Arg v) (hv : ¬ PointLike v) :
    error_if_not_vector_ key v = .error (.valueError ("`" ++ key ++ "` is not a vector.")) := by
  obtain ⟨b, hb⟩ := isPoint_total v h.1
  have : b = false := by
    cases b
    · rfl
    · exact absurd ((C01_is_point v h).1 hb) hv
  subst this
  simp [error_if_not_vector_, hb, bind, Except.bind]

theorem eip_accept (key : String) (v : PyVal) (hv : PointLike v) : error_if_not_point_ key v = .ok () := by
  have h : Arg v := by
    obtain ⟨a, b, ⟨j, x, rfl⟩, ⟨k, y, rfl⟩, h⟩ := hv
    rcases h with h | h | h <;> subst h <;> simp [Arg, PyVal.Wf, NoNpComplex]
  simp [error_if_not_point_, (C01_is_point v h).2 hv, bind, Except.bind]

theorem eiv_accept (key : String) (v : PyVal) (hv : PointLike v) : error_if_not_vector_ key v = .ok () := by
  have h : Arg v := by
    obtain ⟨a, b, ⟨j, x, rfl⟩, ⟨k, y, rfl⟩, h⟩ := hv
    rcases h with h | h | h <;> subst h <;> simp [Arg, PyVal.Wf, NoNpComplex]
  simp [error_if_not_vector_, (C01_is_point v h).2 hv, bind, Except.bind]

theorem asPoint_pointLike (v : PyVal) (hv : PointLike v) : ∃ P, asPoint v = .ok P := by
  obtain ⟨a, b, ⟨j, x, rfl⟩, ⟨k, y, rfl⟩, h⟩ := hv
  refine ⟨(x, y), ?_⟩
  rcases h with h | h | h <;> subst h <;> rfl

theorem asPoint_denotes (v : PyVal) (P : Pt) (hv : DenotesPoint v P) : asPoint v = .ok (.fin P.x, .fin P.y) := by
  obtain ⟨j, k, h⟩ := hv
  rcases h with h | h | h <;> subst h <;> rfl

theorem denotes_pointLike (v : PyVal) (P : Pt) (hv : DenotesPoint v P) : PointLike v := by
  obtain ⟨j, k, h⟩ := hv
  exact ⟨_, _, ⟨_, _, rfl⟩, ⟨_, _, rfl⟩, h⟩

theorem einum_cases (key : String) (x : PyVal) :
    error_if_not_number_ key x = .ok () ∨ ∃ m, error_if_not_number_ key x = .error (.valueError m) := by
  unfold error_if_not_number_; split <;> simp

theorem eipos_cases (key : String) (x : PyVal) :
    error_if_not_positive_ key x = .ok () ∨ ∃ m, error_if_not_positive_ key x = .error (.valueError m) := by
  unfold error_if_not_positive_; split <;> simp

theorem eibool_cases (key : String) (x : PyVal) :
    error_if_not_boolean_ key x = .ok () ∨ ∃ m, error_if_not_boolean_ key x = .error (.valueError m) := by
  unfold error_if_not_boolean_; split <;> simp

/-- The result of a call is a `ValueError`. -/
def IsValueError {α : Type} (r : Res α) : Prop := ∃ msg, r = .error (.valueError msg)

theorem bind_unit_error {α : Type} (c : Res Unit) (k : Unit → Res α) (h : IsValueError c) : IsValueError (c >>= k) := by
  obtain ⟨m, rfl⟩ := h; exact ⟨m, rfl⟩

theorem bind_unit_cases {α : Type} (c : Res Unit) (k : Unit → Res α) (hc : c = .ok () ∨ IsValueError c)
    (h : IsValueError (k ())) : IsValueError (c >>= k) := by
  rcases hc with rfl | hc
  · exact h
  · exact bind_unit_error c k hc

theorem eip_cases (key : String) (v : PyVal) (h : Arg v) :
    error_if_not_point_ key v = .ok () ∨ IsValueError (error_if_not_point_ key v) := by
  by_cases hv : PointLike v
  · exact Or.inl (eip_accept key v hv)
  · exact Or.inr ⟨_, eip_reject key v h hv⟩

theorem withPoint_reject {α : Type} (key : String) (v : PyVal) (body : Pt → Res α) (h : Arg v) (hv : ¬ PointLike v) :
    IsValueError (withPoint key v body) :=
  bind_unit_error _ _ ⟨_, eip_reject key v h hv⟩

theorem withPoint_accept {α : Type} (key : String) (v : PyVal) (body : Pt → Res α) (P : Pt) (hv : DenotesPoint v P) :
    withPoint key v body = body P := by
  unfold withPoint
  rw [eip_accept key v (denotes_pointLike v P hv)]
  simp only [bind, Except.bind]
  rw [asPoint_denotes v P hv]
  rfl

/-- C01: every constructor rejects with `ValueError` when one of its point arguments is not a tuple, a list or a
one-dimensional array of two real numbers - whatever the other arguments are. -/
theorem C01_constructors_reject (P Q R : PyVal) (hP : Arg P) (hQ : Arg Q) (hR : Arg R) (u v w z : PyVal) :
    (¬ PointLike P →
      IsValueError (PyCircle.init P u) ∧ IsValueError (PyArc.init P u v w z) ∧ IsValueError (PyEllipse.init P u v w z) ∧
      IsValueError (PyInversion.init P u) ∧ IsValueError (PyRotation.init P u v) ∧ IsValueError (PyScalingXY.init P u v) ∧
      IsValueError (PyHomothety.init P u)) ∧
    (¬ (PointLike P ∧ PointLike Q) →
      IsValueError (PyLine.init P Q u v) ∧ IsValueError (PyShear.init P Q u v w) ∧ IsValueError (PyScaling.init P Q u)) ∧
    (¬ (PointLike P ∧ PointLike Q ∧ PointLike R) → IsValueError (PyTriangle.init P Q R)) := by
  refine ⟨fun h => ?_, fun h => ?_, fun h => ?_⟩
  · have e : ∀ key, IsValueError (error_if_not_point_ key P) := fun key => ⟨_, eip_reject key P hP h⟩
    exact ⟨bind_unit_error _ _ (e _), bind_unit_error _ _ (e _), bind_unit_error _ _ (e _), bind_unit_error _ _ (e _),
      bind_unit_error _ _ (e _), bind_unit_error _ _ (e _), bind_unit_error _ _ (e _)⟩
  · by_cases hp : PointLike P
    · have hq : ¬ PointLike Q := fun hq => h ⟨hp, hq⟩
      have e : ∀ key, IsValueError (error_if_not_point_ key Q) := fun key => ⟨_, eip_reject key Q hQ hq⟩
      have ev : ∀ key, IsValueError (error_if_not_vector_ key Q) := fun key => ⟨_, eiv_reject key Q hQ hq⟩
      exact ⟨bind_unit_cases _ _ (eip_cases _ P hP) (bind_unit_error _ _ (e _)),
        bind_unit_cases _ _ (eip_cases _ P hP) (bind_unit_error _ _ (e _)),
        bind_unit_cases _ _ (eip_cases _ P hP) (bind_unit_error _ _ (ev _))⟩
    · have e : ∀ key, IsValueError (error_if_not_point_ key P) := fun key => ⟨_, eip_reject key P hP hp⟩
      exact ⟨bind_unit_error _ _ (e _), bind_unit_error _ _ (e _), bind_unit_error _ _ (e _)⟩
  · by_cases hp : PointLike P
    · by_cases hq : PointLike Q
      · have hr : ¬ PointLike R := fun hr => h ⟨hp, hq, hr⟩
        exact bind_unit_cases _ _ (eip_cases _ P hP) (bind_unit_cases _ _ (eip_cases _ Q hQ)
          (bind_unit_error _ _ ⟨_, eip_reject _ R hR hr⟩))
      · exact bind_unit_cases _ _ (eip_cases _ P hP) (bind_unit_error _ _ ⟨_, eip_reject _ Q hQ hq⟩)
    · exact bind_unit_error _ _ ⟨_, eip_reject _ P hP hp⟩

/-- C01: every method that takes a point rejects the other values with `ValueError`. -/
theorem C01_methods_reject (v : PyVal) (h : Arg v) (hv : ¬ PointLike v) (l : Line) (c : Circle) (e : Ellipse)
    (T : Triangle) (p : Projection) (s t : Bool) :
    IsValueError (l.includesPy v s t) ∧ IsValueError (l.perpendicularPy v s t) ∧ IsValueError (l.projectionPy v) ∧
    IsValueError (l.distancePy v) ∧ IsValueError (l.reflectionPy v) ∧ IsValueError (l.translatePy v) ∧
    IsValueError (c.includesPy v) ∧ IsValueError (c.containsPy v) ∧ IsValueError (c.powerPy v) ∧
    IsValueError (e.includesPy v) ∧ IsValueError (e.containsPy v) ∧ IsValueError (T.containsPy v) ∧
    IsValueError (p.projectPy v) := by
  refine ⟨?_, ?_, ?_, ?_, ?_, ?_, ?_, ?_, ?_, ?_, ?_, ?_, ?_⟩ <;> exact withPoint_reject _ v _ h hv

theorem withPoint_message {α : Type} (key : String) (v : PyVal) (body : Pt → Res α) (h : Arg v) (hv : ¬ PointLike v) :
    withPoint key v body = .error (.valueError ("`" ++ key ++ "` is not a point.")) := by
  unfold withPoint
  rw [eip_reject key v h hv]
  rfl

/-- C01: the message names the parameter. -/
theorem C01_methods_message (v : PyVal) (h : Arg v) (hv : ¬ PointLike v) (l : Line) (c : Circle) (e : Ellipse)
    (T : Triangle) (p : Projection) (s t : Bool) :
    l.includesPy v s t = .error (.valueError "`M` is not a point.") ∧ l.perpendicularPy v s t = .error (.valueError "`M` is not a point.") ∧
    l.projectionPy v = .error (.valueError "`M` is not a point.") ∧ l.distancePy v = .error (.valueError "`M` is not a point.") ∧
    l.reflectionPy v = .error (.valueError "`M` is not a point.") ∧ l.translatePy v = .error (.valueError "`v` is not a point.") ∧
    c.includesPy v = .error (.valueError "`P` is not a point.") ∧ c.containsPy v = .error (.valueError "`P` is not a point.") ∧
    c.powerPy v = .error (.valueError "`M` is not a point.") ∧ e.includesPy v = .error (.valueError "`P` is not a point.") ∧
    e.containsPy v = .error (.valueError "`P` is not a point.") ∧ T.containsPy v = .error (.valueError "`M` is not a point.") ∧
    p.projectPy v = .error (.valueError "`M` is not a point.") := by
  refine ⟨?_, ?_, ?_, ?_, ?_, ?_, ?_, ?_, ?_, ?_, ?_, ?_, ?_⟩ <;> exact withPoint_message _ v _ h hv

/-- C01: the functions `circleAB`, `circleOA` and `cross_ratio` reject if one of the arguments is not a point. -/
theorem C01_functions_reject (A B C D : PyVal) (hA : Arg A) (hB : Arg B) (hC : Arg C) (hD : Arg D) :
    (¬ (PointLike A ∧ PointLike B) → IsValueError (circleABPy A B) ∧ IsValueError (circleOAPy A B)) ∧
    (¬ (PointLike A ∧ PointLike B ∧ PointLike C ∧ PointLike D) → IsValueError (cross_ratioPy A B C D)) := by
  constructor
  · intro h
    by_cases ha : PointLike A
    · have hb : ¬ PointLike B := fun hb => h ⟨ha, hb⟩
      exact ⟨bind_unit_cases _ _ (eip_cases _ A hA) (bind_unit_error _ _ ⟨_, eip_reject _ B hB hb⟩),
        bind_unit_error _ _ ⟨_, eip_reject _ B hB hb⟩⟩
    · exact ⟨bind_unit_error _ _ ⟨_, eip_reject _ A hA ha⟩,
        bind_unit_cases _ _ (eip_cases _ B hB) (bind_unit_error _ _ ⟨_, eip_reject _ A hA ha⟩)⟩
  · intro h
    by_cases ha : PointLike A
    · by_cases hb : PointLike B
      · by_cases hc : PointLike C
        · have hd : ¬ PointLike D := fun hd => h ⟨ha, hb, hc, hd⟩
          exact bind_unit_cases _ _ (eip_cases _ A hA) (bind_unit_cases _ _ (eip_cases _ B hB)
            (bind_unit_cases _ _ (eip_cases _ C hC) (bind_unit_error _ _ ⟨_, eip_reject _ D hD hd⟩)))
        · exact bind_unit_cases _ _ (eip_cases _ A hA) (bind_unit_cases _ _ (eip_cases _ B hB)
            (bind_unit_error _ _ ⟨_, eip_reject _ C hC hc⟩))
      · exact bind_unit_cases _ _ (eip_cases _ A hA) (bind_unit_error _ _ ⟨_, eip_reject _ B hB hb⟩)
    · exact bind_unit_error _ _ ⟨_, eip_reject _ A hA ha⟩

/-- C01: the three methods that accept `inf` accept besides it only points; every other value is rejected. -/
theorem C01_inf_methods_reject (v : PyVal) (h : Arg v) (hv : ¬ PointLike v)
    (hinf : ∀ k x, (k = .float ∨ k = .npFloat64) → (x = .pinf ∨ x = .ninf) → v ≠ .num k x)
    (iota : Inversion) (f : Mobius) (R : Reflection) :
    IsValueError (iota.invertPy v) ∧ IsValueError (f.transformPy v) ∧ IsValueError (R.transformPy v) := by
  have hi : ¬ (v.is_inf_ = true) := by
    intro hi
    cases v with
    | num k x => cases k <;> cases x <;> simp [PyVal.is_inf_] at hi <;>
        exact hinf _ _ (by simp) (by simp) rfl
    | _ => simp [PyVal.is_inf_] at hi
  simp only [Inversion.invertPy, Mobius.transformPy, Reflection.transformPy, if_neg hi]
  exact ⟨withPoint_reject _ v _ h hv, withPoint_reject _ v _ h hv, withPoint_reject _ v _ h hv⟩

/-- C01: valid points are accepted by the methods, whichever of the three containers and number types is used; the
result is that of the real model. -/
theorem C01_methods_accept (v : PyVal) (M : Pt) (hv : DenotesPoint v M) (l : Line) (c : Circle) (e : Ellipse)
    (T : Triangle) (p : Projection) (s t : Bool) :
    l.includesPy v s t = .ok (l.includes M s t) ∧ l.perpendicularPy v s t = l.perpendicular M s t ∧
    l.projectionPy v = .ok (l.projection M) ∧ l.distancePy v = l.distance M ∧ l.reflectionPy v = l.reflection M ∧
    l.translatePy v = l.translate M ∧ c.includesPy v = .ok (c.includes M) ∧ c.containsPy v = .ok (c.contains M) ∧
    c.powerPy v = .ok (c.power M) ∧ e.includesPy v = .ok (e.includes M) ∧ e.containsPy v = .ok (e.contains M) ∧
    T.containsPy v = .ok (T.contains M) ∧ p.projectPy v = p.project M := by
  refine ⟨?_, ?_, ?_, ?_, ?_, ?_, ?_, ?_, ?_, ?_, ?_, ?_, ?_⟩ <;> exact withPoint_accept _ v _ M hv

/-- C01: valid points are accepted by the functions `circleAB`, `circleOA` and `cross_ratio`, in the given order; the result is that of the real
model. -/
theorem C01_functions_accept (v w x y : PyVal) (A B C D : Pt) (hv : DenotesPoint v A) (hw : DenotesPoint w B)
    (hx : DenotesPoint x C) (hy : DenotesPoint y D) :
    circleABPy v w = circleAB A B ∧ circleOAPy v w = circleOA A B ∧ cross_ratioPy v w x y = cross_ratio A B C D := by
  unfold circleABPy circleOAPy cross_ratioPy
  simp only [eip_accept _ v (denotes_pointLike v A hv), eip_accept _ w (denotes_pointLike w B hw), eip_accept _ x (denotes_pointLike x C hx),
    eip_accept _ y (denotes_pointLike y D hy), asPoint_denotes v A hv, asPoint_denotes w B hw, asPoint_denotes x C hx,
    asPoint_denotes y D hy]
  exact ⟨rfl, rfl, rfl⟩

/-- C01: two valid points are accepted by `Line` exactly when they are not `allclose`, and the object is that of the
real model. -/
theorem C01_line_accept (v w : PyVal) (A B : Pt) (hv : DenotesPoint v A) (hw : DenotesPoint w B) (eA eB : PyVal) :
    (¬ allclose A B → PyLine.init v w eA eB = .ok ⟨(.fin A.x, .fin A.y), (.fin B.x, .fin B.y), eA, eB⟩) ∧
    (allclose A B → IsValueError (PyLine.init v w eA eB)) := by
  have h : PyLine.init v w eA eB = (if allcloseF (.fin A.x, .fin A.y) (.fin B.x, .fin B.y) then
      .error (.valueError "`A` and `B` must be distinct.") else
      .ok ⟨(.fin A.x, .fin A.y), (.fin B.x, .fin B.y), eA, eB⟩) := by
    unfold PyLine.init
    rw [eip_accept _ v (denotes_pointLike v A hv), eip_accept _ w (denotes_pointLike w B hw), asPoint_denotes v A hv,
      asPoint_denotes w B hw]
    rfl
  constructor
  · intro hn
    rw [h, if_neg (by simpa [allcloseF, Flt.close, allclose] using hn)]
  · intro hn
    rw [h, if_pos (by simpa [allcloseF, Flt.close, allclose] using hn)]
    exact ⟨_, rfl⟩

/-- C01: a valid point and a real number are accepted by `Circle` exactly when the number is not `<= 0`. -/
theorem C01_circle_accept (v : PyVal) (O : Pt) (hv : DenotesPoint v O) (k : NumKind) (r : ℝ) :
    (0 < r → PyCircle.init v (.num k (.fin r)) = .ok ⟨(.fin O.x, .fin O.y), .num k (.fin r)⟩) ∧
    (r ≤ 0 → PyCircle.init v (.num k (.fin r)) = .error (.valueError "`radius` is not positive.")) := by
  have h : PyCircle.init v (.num k (.fin r)) = (error_if_not_positive_ "radius" (.num k (.fin r)) >>= fun _ =>
      .ok ⟨(.fin O.x, .fin O.y), .num k (.fin r)⟩) := by
    unfold PyCircle.init
    rw [eip_accept _ v (denotes_pointLike v O hv), asPoint_denotes v O hv]
    rfl
  constructor <;> intro hr
  · rw [h, error_if_not_positive_, if_neg (by simpa [PyVal.le0] using hr)]
    rfl
  · rw [h, error_if_not_positive_, if_pos (by simpa [PyVal.le0] using hr)]
    rfl

/-- C01 fails for numpy complex scalars other than `np.complex128`: they are instances of `numbers.Number` but not of
`complex`, so a pair of them is accepted as a point and the imaginary parts are dropped. -/
theorem C01_complex64_counterexample :
    ∃ v : PyVal, v.Wf ∧ ¬ PointLike v ∧ error_if_not_point_ "A" v = .ok () ∧
      asPoint v = .ok (.fin 1, .fin 3) ∧ v = .tuple [.npComplex ⟨1, 2⟩, .npComplex ⟨3, 4⟩] := by
  refine ⟨.tuple [.npComplex ⟨1, 2⟩, .npComplex ⟨3, 4⟩], trivial, ?_, ?_, rfl, rfl⟩
  · rintro ⟨a, b, ⟨j, x, rfl⟩, -, h⟩
    simp at h
  · rw [error_if_not_point_, isPoint_two _ _ _ (Or.inl rfl)]
    simp [PyVal.is_number_, PyVal.isNumber, PyVal.isComplex, bind, Except.bind]

/-- C01 fails for the methods that take a point or a matrix of points (`Rotation.rotate`, `Homothety.transform`,
`Shear.transform`, `Scaling.transform`, `ScalingXY.transform`): a pair of numeric strings, and a pair containing `None`, are
accepted there, as `np.asarray(·, dtype=float)` converts them. -/
theorem C01_transform_counterexample :
    ∃ s t : List PyVal, ¬ PointLike (.tuple s) ∧ ¬ PointLike (.tuple t) ∧ flatPoint s = .ok [.fin 1, .fin 2] ∧
      flatPoint t = .ok [.nan, .fin 2] ∧ s = [.str (some (.fin 1)), .str (some (.fin 2))] ∧
      t = [.none, .num .int (.fin 2)] := by
  refine ⟨_, _, ?_, ?_, rfl, rfl, rfl, rfl⟩
  · rintro ⟨a, b, ⟨j, x, rfl⟩, -, h⟩
    simp at h
  · rintro ⟨a, b, ⟨j, x, rfl⟩, -, h⟩
    simp at h

theorem mapM_toFlt_length : ∀ (l : List PyVal) (r : List Flt), l.mapM PyVal.toFlt = .ok r → r.length = l.length := by
  intro l
  induction l with
  | nil => intro r h; simp [pure, Except.pure] at h; subst h; rfl
  | cons a l ih =>
    intro r h
    cases ha : a.toFlt with
    | error e => simp [List.mapM_cons, ha, bind, Except.bind] at h
    | ok x =>
      cases hl : l.mapM PyVal.toFlt with
      | error e => simp [List.mapM_cons, ha, hl, bind, Except.bind] at h
      | ok s =>
        simp [List.mapM_cons, ha, hl, bind, Except.bind, pure, Except.pure] at h
        subst h
        simp [ih s hl]

/-- C01: what the methods taking a point or a matrix do with a flat sequence: it is accepted only with exactly two
entries, and everything else is a `ValueError` (also when the conversion raises another exception). -/
theorem C01_flat_sequence (l : List PyVal) :
    (∃ x y, flatPoint l = .ok [x, y] ∧ ∃ a b, l = [a, b] ∧ a.toFlt = .ok x ∧ b.toFlt = .ok y) ∨ IsValueError (flatPoint l) := by
  unfold flatPoint asRow
  rcases l with _ | ⟨a, _ | ⟨b, _ | ⟨c, l⟩⟩⟩
  · exact Or.inr ⟨_, rfl⟩
  · cases ha : a.toFlt with
    | error e => exact Or.inr ⟨"Invalid `M` argument.", by simp [List.mapM_cons, ha, bind, Except.bind]⟩
    | ok x => exact Or.inr ⟨"cannot reshape array into shape (1,2)",
        by simp [List.mapM_cons, ha, bind, Except.bind, pure, Except.pure]⟩
  · cases ha : a.toFlt with
    | error e => exact Or.inr ⟨"Invalid `M` argument.", by simp [List.mapM_cons, ha, bind, Except.bind]⟩
    | ok x =>
      cases hb : b.toFlt with
      | error e => exact Or.inr ⟨"Invalid `M` argument.", by simp [List.mapM_cons, ha, hb, bind, Except.bind]⟩
      | ok y =>
        exact Or.inl ⟨x, y, by simp [List.mapM_cons, ha, hb, bind, Except.bind, pure, Except.pure], a, b, rfl, ha, hb⟩
  · refine Or.inr ?_
    cases h : List.mapM PyVal.toFlt (a :: b :: c :: l) with
    | error e => exact ⟨_, rfl⟩
    | ok r =>
      have hr : r.length ≠ 2 := by
        have := mapM_toFlt_length _ _ h
        simp only [List.length_cons] at this
        omega
      simp only [hr, if_false]
      exact ⟨_, rfl⟩

/-! ## Concrete cases -/

/-- A list of an integer and a `Fraction` is a point. -/
example : PointLike (.list [.num .int (.fin 3), .num .fraction (.fin (1 / 2))]) :=
  ⟨_, _, ⟨_, _, rfl⟩, ⟨_, _, rfl⟩, Or.inr (Or.inl rfl)⟩

/-- `inf`, `None`, strings, a 2x1 matrix and a complex entry are not points; they are valid `Arg`s. -/
example : ∀ v ∈ [PyVal.num .float .pinf, .none, .str none, .other,
    .ndarray [2, 1] [.num .npFloat64 (.fin 1), .num .npFloat64 (.fin 2)], .tuple [.complex ⟨1, 2⟩, .num .int (.fin 1)],
    .tuple [.num .int (.fin 1), .num .int (.fin 2), .num .int (.fin 3)], .list [.num .int (.fin 1)]],
    Arg v ∧ ¬ PointLike v := by
  intro v hv
  simp only [List.mem_cons, List.not_mem_nil, or_false] at hv
  rcases hv with h | h | h | h | h | h | h | h <;> subst h <;>
    (refine ⟨by simp [Arg, PyVal.Wf, NoNpComplex], ?_⟩
     rintro ⟨a, b, ⟨j, x, rfl⟩, ⟨k, y, rfl⟩, h⟩
     simp at h)

/-- The point `(1, 2)` as an array of numpy floats. -/
example : DenotesPoint (.ndarray [2] [.num .npFloat64 (.fin 1), .num .npFloat64 (.fin 2)]) ⟨1, 2⟩ :=
  ⟨_, _, Or.inr (Or.inr rfl)⟩

/-- The tuple `(1, 2, 3)` is not a point: the constructors and methods reject it. -/
example (l : Line) (c : Circle) (iota : Inversion) (p : Projection) :
    let v : PyVal := .tuple [.num .int (.fin 1), .num .int (.fin 2), .num .int (.fin 3)]
    v.is_point_ ≠ .ok true ∧ IsValueError (PyCircle.init v (.num .int (.fin 1))) ∧
    l.includesPy v false true = .error (.valueError "`M` is not a point.") ∧ IsValueError (c.powerPy v) ∧
    IsValueError (circleABPy v v) ∧ IsValueError (iota.invertPy v) := by
  intro v
  have hv : Arg v := by simp [v, Arg, PyVal.Wf, NoNpComplex]
  have hp : ¬ PointLike v := by
    rintro ⟨a, b, ⟨j, x, rfl⟩, ⟨k, y, rfl⟩, h⟩
    simp [v] at h
  refine ⟨fun h => hp ((C01_is_point v hv).1 h), ?_, ?_, ?_, ?_, ?_⟩
  · exact ((C01_constructors_reject v v v hv hv hv (.num .int (.fin 1)) v v v).1 hp).1
  · exact (C01_methods_message v hv hp l c ⟨⟨0, 0⟩, 1, 1, 0, true⟩ ⟨⟨0, 0⟩, ⟨0, 0⟩, ⟨0, 0⟩⟩ p false true).1
  · exact (C01_methods_reject v hv hp l c ⟨⟨0, 0⟩, 1, 1, 0, true⟩ ⟨⟨0, 0⟩, ⟨0, 0⟩, ⟨0, 0⟩⟩ p false true).2.2.2.2.2.2.2.2.1
  · exact ((C01_functions_reject v v v v hv hv hv hv).1 (fun h => hp h.1)).1
  · exact (C01_inf_methods_reject v hv hp (by intro k x _ _; simp [v]) iota ⟨1⟩ ⟨l⟩).1

/-- The list `[3, 1/2]` with a `Fraction` is a point: the methods and functions compute with `(3, 1/2)`. -/
example (c : Circle) (l : Line) (e : Ellipse) (T : Triangle) (p : Projection) :
    let v : PyVal := .list [.num .int (.fin 3), .num .fraction (.fin (1 / 2))]
    let w : PyVal := .tuple [.num .float (.fin 0), .num .int (.fin 0)]
    c.powerPy v = .ok (c.power ⟨3, 1 / 2⟩) ∧ circleABPy v w = circleAB ⟨3, 1 / 2⟩ ⟨0, 0⟩ ∧
    (∃ x, PyLine.init v w (.num .bool (.fin 1)) (.num .bool (.fin 1)) = .ok x) ∧
    (∃ x, PyCircle.init v (.num .decimal (.fin (1 / 4))) = .ok x) ∧
    PyCircle.init v (.num .decimal (.fin (-1 / 4))) = .error (.valueError "`radius` is not positive.") := by
  intro v w
  have hv : DenotesPoint v ⟨3, 1 / 2⟩ := ⟨_, _, Or.inr (Or.inl rfl)⟩
  have hw : DenotesPoint w ⟨0, 0⟩ := ⟨_, _, Or.inl rfl⟩
  refine ⟨(C01_methods_accept v _ hv l c e T p false true).2.2.2.2.2.2.2.2.1,
    (C01_functions_accept v w v w _ _ _ _ hv hw hv hw).1, ⟨_, (C01_line_accept v w _ _ hv hw _ _).1 ?_⟩,
    ⟨_, (C01_circle_accept v _ hv _ _).1 (by norm_num)⟩, (C01_circle_accept v _ hv _ _).2 (by norm_num)⟩
  unfold allclose npClose; norm_num [abs_of_pos]
