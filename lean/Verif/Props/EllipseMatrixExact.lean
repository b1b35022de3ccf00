import Verif.Props.Ellipse

/-! C65, what `Ellipse.from_center_and_matrix` does with a matrix that is not symmetric. -/

open Spec Real Classical

/-- The symmetric matrix with the same lower triangle. -/
def Spec.lowerSym (S : Matrix (Fin 2) (Fin 2) ℝ) : Matrix (Fin 2) (Fin 2) ℝ := !![S 0 0, S 1 0; S 1 0, S 1 1]

/-- C65 (every matrix): the entry above the diagonal is ignored.  A value is returned exactly when the symmetric matrix with the same lower triangle
is positive definite, and it is the ellipse of that matrix; it is the ellipse of the given matrix exactly when this one is symmetric. -/
theorem C65_exact (O : Pt) (S : Matrix (Fin 2) (Fin 2) ℝ) (g : Ellipse.Eigh) (hg : Ellipse.IsEigh S g) :
    ((∃ e, Ellipse.from_center_and_eigen O g = .ok e) ↔ PosDef2 (lowerSym S)) ∧
    (¬ PosDef2 (lowerSym S) → ∃ m, Ellipse.from_center_and_eigen O g = .error (.valueError m)) ∧
    ∀ e, Ellipse.from_center_and_eigen O g = .ok e → (∀ P, OnE e P ↔ quadForm (lowerSym S) (P - O) = 1) ∧
      ((∀ P, OnE e P ↔ quadForm S (P - O) = 1) ↔ S 0 1 = S 1 0) := by
  have hg' : Ellipse.IsEigh (lowerSym S) g := by
    obtain ⟨h1, h2, h3, h4, h5, h6, h7, h8⟩ := hg
    constructor <;> simpa [lowerSym]
  have rej : ¬ PosDef2 (lowerSym S) → ∃ m, Ellipse.from_center_and_eigen O g = .error (.valueError m) :=
    fun hn => C65_rejects O (lowerSym S) (by simp [lowerSym]) hn g hg'
  have good : ∀ e, Ellipse.from_center_and_eigen O g = .ok e → PosDef2 (lowerSym S) := by
    intro e he
    by_contra hn
    obtain ⟨m, hm⟩ := rej hn
    rw [he] at hm
    simp at hm
  refine ⟨⟨fun ⟨e, he⟩ => good e he, fun hp => ?_⟩, rej, ?_⟩
  · obtain ⟨e, he, -⟩ := C65_from_center_and_matrix O (lowerSym S) hp g hg'
    exact ⟨e, he⟩
  · intro e he
    have hp := good e he
    obtain ⟨e', he', -, -, -, hon⟩ := C65_from_center_and_matrix O (lowerSym S) hp g hg'
    rw [he] at he'
    obtain rfl := Except.ok.inj he'
    refine ⟨hon, ?_, ?_⟩
    · intro hS
      have hq : ∀ v, quadForm S v = quadForm (lowerSym S) v + (S 0 1 - S 1 0) * (v.x * v.y) := by
        intro v; unfold quadForm lowerSym; simp; ring
      have hpos := hp.2 ⟨1, 1⟩ (by intro hc; have := congrArg Pt.x hc; norm_num at this)
      obtain ⟨q, hqe⟩ : ∃ q, q = quadForm (lowerSym S) ⟨1, 1⟩ := ⟨_, rfl⟩
      rw [← hqe] at hpos
      have hs : 0 < sqrt q := Real.sqrt_pos.2 hpos
      have hss : sqrt q * sqrt q = q := Real.mul_self_sqrt hpos.le
      have e1 : quadForm (lowerSym S) ⟨1 / sqrt q, 1 / sqrt q⟩ = 1 := by
        have : ∀ t : ℝ, quadForm (lowerSym S) ⟨t, t⟩ = quadForm (lowerSym S) ⟨1, 1⟩ * (t * t) := by
          intro t; unfold quadForm; ring
        rw [this, ← hqe]
        field_simp
        linarith
      have e2 : O + ⟨1 / sqrt q, 1 / sqrt q⟩ - O = (⟨1 / sqrt q, 1 / sqrt q⟩ : Pt) := by ext <;> simp
      have h1 := (hon (O + ⟨1 / sqrt q, 1 / sqrt q⟩)).2 (by rw [e2]; exact e1)
      have h2 := (hS _).1 h1
      rw [e2, hq, e1] at h2
      dsimp only at h2
      have h3 : (S 0 1 - S 1 0) * (1 / sqrt q * (1 / sqrt q)) = 0 := by linarith
      have h4 := (mul_eq_zero.1 h3).resolve_right (by positivity)
      linarith
    · intro hS P
      rw [hon]
      unfold quadForm lowerSym
      simp [hS]

/-- The matrix `[[1, 100], [0, 1]]`: the unit circle is returned. -/
example : PosDef2 (lowerSym !![1, 100; 0, 1]) ∧ ¬ PosDef2 !![1, 100; 0, 1] := by
  refine ⟨⟨by simp [lowerSym], ?_⟩, C65_not_symmetric_counterexample.1⟩
  intro v hv
  have : quadForm (lowerSym !![1, 100; 0, 1]) v = v.x ^ 2 + v.y ^ 2 := by unfold quadForm lowerSym; simp; ring
  rw [this]
  by_contra hc
  apply hv
  ext <;> simp <;> nlinarith [sq_nonneg v.x, sq_nonneg v.y]
