import Verif.Proofs.Equilibrium
import Verif.Model.Gui

/-! Lemmas on `solids_auto`: decomposition of a successful run, sizes of element matrices. -/

set_option linter.unusedSectionVars false

namespace SolidsPy
open Spec Assem

section
variable {K : Type} [Field K] [LinearOrder K] [IsStrictOrderedRing K] [FloorRing K]

theorem planeUel_rows {n : ℕ} {body : Matrix (Fin n) (Fin 2) K → Matrix (Fin 3) (Fin 3) K → K →
    Py (Matrix (Fin n × Fin 2) (Fin n × Fin 2) K × Matrix (Fin n × Fin 2) (Fin n × Fin 2) K)}
    {coord : Table K} {params : List K} {kl ml : NdArr K}
    (h : Uel.planeUel body coord params = .ok (kl, ml)) : rowsOf kl = n * 2 := by
  unfold Uel.planeUel at h
  simp only [bind_ok, pure_ok, Prod.mk.injEq] at h
  obtain ⟨C, _, dens, _, x, _, km, _, rfl, rfl⟩ := h
  rfl

theorem eleFun_rows {sq : K → K} {ty : ℤ} {f : Uel K} (hf : Uel.eleFun sq ty = .ok f) {coord : Table K}
    {params : List K} {kl ml : NdArr K} (h : f coord params = .ok (kl, ml)) :
    TypeDofs ty (rowsOf kl) := by
  unfold Uel.eleFun at hf
  split at hf
  · cases hf; rw [planeUel_rows h]; simp [TypeDofs]
  · cases hf; rw [planeUel_rows h]; simp [TypeDofs]
  · cases hf; rw [planeUel_rows h]; simp [TypeDofs]
  · cases hf; rw [planeUel_rows h]; simp [TypeDofs]
  · cases hf
    unfold Uel.spring at h
    simp only [bind_ok, pure_ok, Prod.mk.injEq] at h
    obtain ⟨g, _, S, _, rfl, rfl⟩ := h
    simp [TypeDofs, rowsOf]
  · cases hf
    unfold Uel.truss2D at h
    rw [bind_ok] at h
    obtain ⟨g, _, h⟩ := h
    dsimp only at h
    split at h
    · simp only [bind_ok] at h
      obtain ⟨s, _, h⟩ := h
      split at h
      · simp only [bind_ok, pure_ok, Prod.mk.injEq] at h
        obtain ⟨d, _, rfl, rfl⟩ := h
        simp [TypeDofs, rowsOf]
      · simp only [bind_ok, pure_ok, Prod.mk.injEq] at h
        obtain ⟨d, _, rfl, rfl⟩ := h
        simp [TypeDofs, rowsOf]
    · simp at h
  · cases hf
    unfold Uel.beam2DU at h
    rw [bind_ok] at h
    obtain ⟨g, _, h⟩ := h
    dsimp only at h
    split at h
    · simp only [bind_ok, pure_ok, Prod.mk.injEq] at h
      obtain ⟨s, _, da, _, rfl, rfl⟩ := h
      simp [TypeDofs, rowsOf]
    · simp at h
  · cases hf
    unfold Uel.beam2D at h
    rw [bind_ok] at h
    obtain ⟨g, _, h⟩ := h
    dsimp only at h
    split at h
    · simp only [bind_ok, pure_ok, Prod.mk.injEq] at h
      obtain ⟨r, _, b, _, M, _, rfl, rfl⟩ := h
      simp [TypeDofs, rowsOf]
    · simp at h
  · simp at hf

theorem typeDofs_unique {ty : ℤ} {m n : ℕ} (h : TypeDofs ty m) (h' : TypeDofs ty n) : m = n := by
  unfold TypeDofs at h h'
  omega

/-- The steps of a successful run of `solids_auto`. -/
theorem auto_ok {sq : K → K} {sp de : Sol.Solver K} {d : Gui.Data K} {plot : Bool} {res : Gui.Result K} :
    Gui.solidsAuto sq sp de d plot = .ok res ↔
    ∃ op bc neq Kg Mg rhs x ok full plots, dme d.cons d.elements = .ok (op, bc, neq) ∧
      assembler (Uel.eleFun sq) d.elements d.mats d.nodes neq op = .ok (Kg, Mg) ∧
      loadasem d.loads bc neq = .ok rhs ∧ sp neq Kg rhs = .ok x ∧
      Gui.balanced Kg x rhs = .ok ok ∧ Post.completeDisp bc d.nodes.length x = .ok full ∧
      (if plot then Post.fieldsPlot d.elements d.nodes.length false false else pure []) = .ok plots ∧
      res = ⟨full, neq, !ok, plots⟩ := by
  unfold Gui.solidsAuto
  constructor
  · intro h
    rw [bind_ok] at h
    obtain ⟨⟨op, bc, neq⟩, h1, h⟩ := h
    dsimp only at h
    rw [bind_ok] at h
    obtain ⟨⟨Kg, Mg⟩, h2, h⟩ := h
    dsimp only at h
    rw [bind_ok] at h
    obtain ⟨rhs, h3, h⟩ := h
    rw [bind_ok] at h
    obtain ⟨x, h4, h⟩ := h
    rw [bind_ok] at h
    obtain ⟨ok, h5, h⟩ := h
    rw [bind_ok] at h
    obtain ⟨full, h6, h⟩ := h
    refine ⟨op, bc, neq, Kg, Mg, rhs, x, ok, full, res.plots, h1, h2, h3, h4, h5, h6, ?_⟩
    cases plot with
    | true =>
      simp only [if_true, bind_ok, pure_ok] at h ⊢
      obtain ⟨plots, h7, rfl⟩ := h
      exact ⟨h7, rfl⟩
    | false =>
      simp only [Bool.false_eq_true, if_false, bind_ok, pure_ok] at h ⊢
      obtain ⟨plots, h7, rfl⟩ := h
      exact ⟨h7, rfl⟩
  · rintro ⟨op, bc, neq, Kg, Mg, rhs, x, ok, full, plots, h1, h2, h3, h4, h5, h6, h7, rfl⟩
    simp only [h1, h2, h3, Sol.staticSol, h4, h5, h6, ok_bind]
    cases plot with
    | true =>
      simp only [if_true] at h7 ⊢
      rw [h7]
      rfl
    | false =>
      simp only [Bool.false_eq_true, if_false, pure_ok] at h7 ⊢
      subst h7
      rfl

/-- The routine used for an element type. -/
def Routine (sq : K → K) (ty : ℤ) (f : Uel K) : Prop := Uel.eleFun sq ty = .ok f

/-- Assembly in `solids_auto` gives a `Setup`. -/
theorem auto_setup {sq : K → K} {d : Gui.Data K} {op bc : List (List ℤ)} {neq : ℕ}
    {Kg Mg : Matrix (Fin neq) (Fin neq) K} (h1 : dme d.cons d.elements = .ok (op, bc, neq))
    (h2 : assembler (Uel.eleFun sq) d.elements d.mats d.nodes neq op = .ok (Kg, Mg))
    (hv : ValidCons d.cons 2) (hw : ∀ r ∈ d.cons, r.length = 2) (hl : d.cons.length = d.nodes.length) :
    ∃ ms, Setup (Routine sq) d.cons d.elements d.mats d.nodes 2 neq bc Kg ms := by
  refine setup_of_assembly (uel := none) (fun ty f h => ?_) h1 hv hw hl (by omega) h2 ?_
  · rcases h with h | ⟨_, h⟩
    · simp at h
    · exact h
  · intro el hel ty f coord params kl ml hty hf hcl hk
    rcases hf with hf | ⟨_, hf⟩
    · simp at hf
    · obtain ⟨ty', h3, h4, _⟩ := (C05_dme_accepts_iff hw).1 ⟨_, h1⟩ el hel
      rw [hty, Option.some.injEq] at h3
      subst h3
      have h5 := eleFun_rows hf hk
      refine ⟨typeDofs_unique h5 h4, rowsOf kl, ?_, h5⟩
      unfold TypeDofs at h5
      omega

end
end SolidsPy
