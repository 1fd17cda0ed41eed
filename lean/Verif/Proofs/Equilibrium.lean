import Verif.Spec.Equilibrium
import Verif.Props.Loads
import Verif.Props.Assembly
import Verif.Props.Dme
import Mathlib.LinearAlgebra.Matrix.ToLinearEquiv
import Mathlib.LinearAlgebra.Matrix.NonsingularInverse
import Mathlib.Tactic.LinearCombination

/-! Lemmas for C18 - C25: assembled system and nodal equilibrium. -/

set_option linter.unusedSectionVars false

namespace SolidsPy
open Spec Assem

section
variable {K : Type} [Field K]

theorem sum_range_mul (nd n : ℕ) (f : ℕ → K) :
    ∑ r ∈ Finset.range (nd * n), f r = ∑ a ∈ Finset.range n, ∑ j ∈ Finset.range nd, f (nd * a + j) := by
  induction n with
  | zero => simp
  | succ n ih =>
    rw [Nat.mul_succ, Finset.sum_range_add, ih, Finset.sum_range_succ]

theorem sum_range_list {A σ : Type} [AddCommMonoid A] (l : List σ) (d : σ) (f : σ → A) :
    ∑ e ∈ Finset.range l.length, f (l.getD e d) = (l.map f).sum := by
  rw [← sum_list_range]
  congr 1
  apply List.ext_getElem
  · simp
  · intro i h1 h2
    simp at h1 h2
    simp [h1]

/-- Virtual work: the internal forces of `u` work on `v` as the element forms do. -/
theorem virtual_work {nd n : ℕ} {ms : List (Member K)} (hn : ∀ m ∈ ms, ∀ p ∈ m.nodes, p < n)
    (v u : ℕ → ℕ → K) :
    ∑ p ∈ Finset.range n, ∑ j ∈ Finset.range nd, v p j * internal nd ms u p j =
      (ms.map fun m => m.form nd v u).sum := by
  induction ms with
  | nil => simp [internal]
  | cons m ms ih =>
    have h1 : ∀ p j, internal nd (m :: ms) u p j = (∑ a ∈ Finset.range m.nodes.length,
        if m.nodes[a]? = some p then m.force nd u a j else 0) + internal nd ms u p j := fun _ _ => rfl
    simp only [h1, mul_add, Finset.sum_add_distrib, List.map_cons, List.sum_cons]
    rw [ih fun m hm => hn m (by simp [hm])]
    congr 1
    unfold Member.form
    simp only [Finset.mul_sum]
    calc
      _ = ∑ p ∈ Finset.range n, ∑ a ∈ Finset.range m.nodes.length, ∑ j ∈ Finset.range nd,
          v p j * (if m.nodes[a]? = some p then m.force nd u a j else 0) :=
        Finset.sum_congr rfl fun p _ => Finset.sum_comm
      _ = ∑ a ∈ Finset.range m.nodes.length, ∑ p ∈ Finset.range n, ∑ j ∈ Finset.range nd,
          v p j * (if m.nodes[a]? = some p then m.force nd u a j else 0) := Finset.sum_comm
      _ = _ := by
        refine Finset.sum_congr rfl fun a ha => ?_
        rw [Finset.mem_range] at ha
        have hget : m.nodes[a]? = some m.nodes[a] := List.getElem?_eq_getElem ha
        have hmem : m.nodes[a] < n := hn m (by simp) _ (List.getElem_mem ha)
        rw [Finset.sum_eq_single m.nodes[a]]
        · refine Finset.sum_congr rfl fun j _ => ?_
          rw [if_pos hget, List.getD_eq_getElem?_getD, hget, Option.getD_some]
        · intro p _ hne
          refine Finset.sum_eq_zero fun j _ => ?_
          rw [if_neg, mul_zero]
          rw [hget, Option.some.injEq]
          exact fun h => hne h.symm
        · intro h
          exact absurd (Finset.mem_range.2 hmem) h

theorem internal_congr {nd : ℕ} {ms : List (Member K)} {u v : ℕ → ℕ → K} {n : ℕ}
    (hn : ∀ m ∈ ms, ∀ p ∈ m.nodes, p < n) (h : ∀ p < n, ∀ j < nd, u p j = v p j) (p j : ℕ) :
    internal nd ms u p j = internal nd ms v p j := by
  unfold internal
  congr 1
  refine List.map_congr_left fun m hm => ?_
  refine Finset.sum_congr rfl fun a _ => ?_
  split
  · unfold Member.force
    refine Finset.sum_congr rfl fun b hb => Finset.sum_congr rfl fun c hc => ?_
    rw [Finset.mem_range] at hb hc
    have hget : m.nodes[b]? = some m.nodes[b] := List.getElem?_eq_getElem hb
    rw [List.getD_eq_getElem?_getD, hget, Option.getD_some,
      h _ (hn m hm _ (List.getElem_mem hb)) c hc]
  · rfl

theorem internal_linear {nd : ℕ} {ms : List (Member K)} (a b : K) (u v : ℕ → ℕ → K) (p j : ℕ) :
    internal nd ms (fun p j => a * u p j + b * v p j) p j =
      a * internal nd ms u p j + b * internal nd ms v p j := by
  induction ms with
  | nil => simp [internal]
  | cons m ms ih =>
    have h1 : ∀ u, internal nd (m :: ms) u p j = (∑ a ∈ Finset.range m.nodes.length,
        if m.nodes[a]? = some p then m.force nd u a j else 0) + internal nd ms u p j := fun _ => rfl
    have h2 : ∀ x, m.force nd (fun p j => a * u p j + b * v p j) x j =
        a * m.force nd u x j + b * m.force nd v x j := by
      intro x
      unfold Member.force
      simp only [Finset.mul_sum, ← Finset.sum_add_distrib]
      refine Finset.sum_congr rfl fun _ _ => Finset.sum_congr rfl fun _ _ => ?_
      ring
    rw [h1, h1, h1, ih, mul_add, mul_add, Finset.mul_sum, Finset.mul_sum]
    have h3 : (∑ x ∈ Finset.range m.nodes.length, if m.nodes[x]? = some p then
        m.force nd (fun p j => a * u p j + b * v p j) x j else 0) =
        (∑ x ∈ Finset.range m.nodes.length, a * if m.nodes[x]? = some p then m.force nd u x j else 0) +
        ∑ x ∈ Finset.range m.nodes.length, b * if m.nodes[x]? = some p then m.force nd v x j else 0 := by
      rw [← Finset.sum_add_distrib]
      refine Finset.sum_congr rfl fun x _ => ?_
      split
      · rw [h2]
      · simp
    rw [h3]
    ring

theorem internal_perm {nd : ℕ} {ms ms' : List (Member K)} (h : ms.Perm ms') (u : ℕ → ℕ → K) (p j : ℕ) :
    internal nd ms u p j = internal nd ms' u p j := (h.map _).sum_eq

/-- The form on a symmetric element is symmetric. -/
theorem form_symm {nd : ℕ} {m : Member K}
    (hs : ∀ r < nd * m.nodes.length, ∀ c < nd * m.nodes.length, m.k r c = m.k c r) (v u : ℕ → ℕ → K) :
    m.form nd v u = m.form nd u v := by
  have e : ∀ v u : ℕ → ℕ → K, m.form nd v u = ∑ r ∈ Finset.range (nd * m.nodes.length),
      ∑ c ∈ Finset.range (nd * m.nodes.length),
        v (m.nodes.getD (r / nd) 0) (r % nd) * m.k r c * u (m.nodes.getD (c / nd) 0) (c % nd) := by
    intro v u
    rw [sum_range_mul]
    unfold Member.form Member.force
    refine Finset.sum_congr rfl fun a _ => Finset.sum_congr rfl fun j hj => ?_
    rw [Finset.mem_range] at hj
    rw [sum_range_mul, Finset.mul_sum]
    refine Finset.sum_congr rfl fun b _ => ?_
    rw [Finset.mul_sum]
    refine Finset.sum_congr rfl fun c hc => ?_
    rw [Finset.mem_range] at hc
    have hnd : 0 < nd := by omega
    rw [Nat.mul_add_div hnd, Nat.mul_add_div hnd, Nat.mul_add_mod, Nat.mul_add_mod,
      Nat.div_eq_of_lt hj, Nat.div_eq_of_lt hc, Nat.mod_eq_of_lt hj, Nat.mod_eq_of_lt hc]
    simp only [Nat.add_zero]
    ring
  rw [e, e, Finset.sum_comm]
  refine Finset.sum_congr rfl fun c hc => Finset.sum_congr rfl fun r hr => ?_
  rw [hs r (Finset.mem_range.1 hr) c (Finset.mem_range.1 hc)]
  ring

/-- Product of the assembled matrix with a vector: sum over elements and their local rows. -/
theorem mulVec_scatter {neq : ℕ} {op : List ℤ} {n : ℕ} {a : ℕ → ℕ → K} {u : Fin neq → K} {ue : ℕ → K}
    (hu : IsLocal op u ue) (i : Fin neq) :
    ∑ j : Fin neq, scatter op neq n a i j * u j =
      ∑ r ∈ Finset.range n, if Hit op neq r i then ∑ c ∈ Finset.range n, a r c * ue c else 0 := by
  unfold scatter
  simp only [Finset.sum_mul]
  rw [Finset.sum_comm]
  refine Finset.sum_congr rfl fun r _ => ?_
  rw [Finset.sum_comm]
  by_cases hr : Hit op neq r i
  · rw [if_pos hr]
    refine Finset.sum_congr rfl fun c _ => ?_
    rw [isLocal_sum hu c, Finset.mul_sum]
    refine Finset.sum_congr rfl fun j _ => ?_
    by_cases hc : Hit op neq c j <;> simp [hr, hc]
  · rw [if_neg hr]
    refine Finset.sum_eq_zero fun c _ => Finset.sum_eq_zero fun j _ => ?_
    simp [hr]

end

section
variable {K : Type} [Field K] [LinearOrder K] [IsStrictOrderedRing K] [FloorRing K]

/-- Everything known about a successful `DME` and assembly with `nd` columns. -/
structure Setup (fn : ℤ → Uel K → Prop) (cons : Table K) (elements : List (List ℤ)) (mats nodes : Table K)
    (nd neq : ℕ) (bc : List (List ℤ)) (Kg : Matrix (Fin neq) (Fin neq) K) (ms : List (Member K)) :
    Prop where
  eq : eqcounter cons nd = .ok (neq, bc)
  valid : ValidCons cons nd
  mem : List.Forall₂ (IsMember fn mats nodes) elements ms
  inn : ∀ m ∈ ms, ∀ p ∈ m.nodes, p < cons.length
  mul : ∀ (u : Fin neq → K) (U : ℕ → ℕ → K),
    (∀ p < cons.length, ∀ j < nd, (∀ i : Fin neq, DofEq bc neq p j i → U p j = u i) ∧
      ((∀ i : Fin neq, ¬ DofEq bc neq p j i) → U p j = 0)) →
    ∀ (p j : ℕ) (i : Fin neq), Free cons nd p j → DofEq bc neq p j i →
      Kg.mulVec u i = internal nd ms U p j

/-- The assembled matrix made of the arrays that `g` picks from the results of the element routines. -/
theorem setup_of_scatter {fn : ℤ → Uel K → Prop} {eleFun : ℤ → Py (Uel K)} {uel : Option (Uel K)}
    {g : NdArr K × NdArr K → NdArr K}
    (hfn : ∀ ty f coord params r, (uel = some f ∨ (uel = none ∧ eleFun ty = .ok f)) → f coord params = .ok r →
      ∃ f' r', fn ty f' ∧ f' coord params = .ok (g r, r'))
    {cons : Table K} {elements : List (List ℤ)} {mats nodes : Table K} {nd m : ℕ}
    {ndofEl : Option (ℤ → Py ℕ)} {op bc : List (List ℤ)} {neq : ℕ}
    (hd : dme cons elements nd m ndofEl = .ok (op, bc, neq)) (hv : ValidCons cons nd)
    (hw : ∀ r ∈ cons, r.length = nd) (hl : cons.length = nodes.length) (hm0 : 0 < m)
    {Kg : Matrix (Fin neq) (Fin neq) K} {loc : ℕ → NdArr K × NdArr K} {opr : ℕ → List ℤ}
    (h1 : ∀ e < elements.length, retriever eleFun elements mats nodes e uel = .ok (loc e) ∧ op[e]? = some (opr e))
    (h2 : ∀ i j, Kg i j = ∑ e ∈ Finset.range elements.length, scatter (opr e) neq (rowsOf (loc e).1) (cell (g (loc e))) i j)
    (hrows : ∀ el ∈ elements, ∀ ty f coord params kl ml, el[1]? = some ty →
      (uel = some f ∨ (uel = none ∧ eleFun ty = .ok f)) → coord.length = (el.drop 3).length →
      f coord params = .ok (kl, ml) → rowsOf kl = nd * (el.drop 3).length ∧
        ∃ n, 0 < n ∧ match ndofEl with | none => TypeDofs ty n | some f => f ty = .ok n) :
    ∃ ms, Setup fn cons elements mats nodes nd neq bc Kg ms := by
  have heq := (dme_ok.1 hd).1
  -- one member per element
  have hex : ∀ e < elements.length, ∃ mm : Member K, IsMember fn mats nodes (elements.getD e []) mm ∧
      mm.k = cell (g (loc e)) ∧ rowsOf (loc e).1 = nd * mm.nodes.length ∧
      (∀ p ∈ mm.nodes, p < cons.length) ∧
      ∀ a p, mm.nodes[a]? = some p → ∀ j < nd, ∀ i, (Hit (opr e) neq (nd * a + j) i ↔ DofEq bc neq p j i) := by
    intro e he
    obtain ⟨hr, ho⟩ := h1 e he
    obtain ⟨el, ty, mi, params, rows, f, e1, e2, e3, e4, e5, e6, e7⟩ := C16_retriever_value.1 hr
    have hgetD : elements.getD e [] = el := by rw [List.getD_eq_getElem?_getD, e1]; rfl
    obtain ⟨ps, hp1, hp2⟩ : ∃ ps, List.Forall₂ (Resolves nodes.length) (el.drop 3) ps ∧
        List.Forall₂ (fun p row => nodes[p]? = some row) ps rows := by
      clear e7 hr
      generalize el.drop 3 = ids at e5
      induction e5 with
      | nil => exact ⟨[], .nil, .nil⟩
      | cons h _ ih =>
        obtain ⟨k, hk, hk'⟩ := h
        obtain ⟨ps, a1, a2⟩ := ih
        exact ⟨k :: ps, .cons hk a1, .cons hk' a2⟩
    have hlen : ps.length = (el.drop 3).length := hp1.length_eq.symm
    have hlen2 : rows.length = (el.drop 3).length := by rw [← hp2.length_eq, hlen]
    obtain ⟨hrl, n, hn0, hn⟩ := hrows el (List.mem_of_getElem? e1) ty f _ params (loc e).1 (loc e).2 e2 e6
      (by simpa using hlen2) e7
    refine ⟨⟨ps, cell (g (loc e))⟩, ?_, rfl, by rw [hrl, hlen], ?_, ?_⟩
    · rw [hgetD]
      obtain ⟨f', r', g1, g2⟩ := hfn _ _ _ _ _ e6 e7
      exact ⟨ty, mi, params, rows, f', g (loc e), r', e2, e3, e4, hp1, hp2, g1, g2, rfl⟩
    · intro p hp
      obtain ⟨a, ha', rfl⟩ := List.mem_iff_getElem.1 hp
      have := hp1.get (i := a) (by rw [← hlen]; exact ha') ha'
      rw [hl]
      exact this.1
    · intro a p hap j hj i
      obtain ⟨hal, rfl⟩ := List.getElem?_eq_some_iff.1 hap
      have hal' : a < (el.drop 3).length := by rw [← hlen]; exact hal
      have hres := hp1.get (i := a) hal' hal
      have hg : el[3 + a]? = some ((el.drop 3)[a]) := by
        rw [← List.getElem?_drop, List.getElem?_eq_getElem hal']
      have := C04_operator_row_entries hd hw e1 e2 hn hn0 hm0 hg (p := ps[a])
        (by rw [hl]; exact hres) hj
      unfold Hit DofEq
      rw [← this]
      unfold entry
      rw [ho]
      rfl
  have hne : Nonempty (Member K) := ⟨⟨[], fun _ _ => 0⟩⟩
  choose! mm hm1 hm2 hm3 hm4 hm5 using hex
  refine ⟨(List.range elements.length).map mm, heq, hv, ?_, ?_, ?_⟩
  · rw [List.forall₂_iff_get]
    refine ⟨by simp, fun i hi1 hi2 => ?_⟩
    have := hm1 i hi1
    rw [List.getD_eq_getElem?_getD, List.getElem?_eq_getElem hi1] at this
    simpa using this
  · intro m' hm' p hp
    simp only [List.mem_map, List.mem_range] at hm'
    obtain ⟨e, he, rfl⟩ := hm'
    exact hm4 e he p hp
  · intro u U hU p j i hf hdof
    have hown := owns_of_eqcounter heq hv hf (i := i) (by
      obtain ⟨e1, e2⟩ := free_entry heq hf
      obtain ⟨g, hg, _, hr⟩ := hdof
      rw [e1, Option.some.injEq] at hg
      subst hg
      rw [e1]
      have : Resolves neq (rank cons nd p j : ℤ) (rank cons nd p j) := ⟨e2, Or.inl rfl⟩
      rw [resolves_unique hr this]) i.2
    have hloc : ∀ e < elements.length, ∃ ue, IsLocal (opr e) u ue ∧ ∀ a < (mm e).nodes.length, ∀ c < nd,
        ue (nd * a + c) = U ((mm e).nodes.getD a 0) c := by
      intro e he
      obtain ⟨ue, hue⟩ := exists_isLocal (opr e) u
      refine ⟨ue, hue, fun a ha' c hc => ?_⟩
      have hget : (mm e).nodes[a]? = some (mm e).nodes[a] := List.getElem?_eq_getElem ha'
      rw [List.getD_eq_getElem?_getD, hget, Option.getD_some]
      have hiff := hm5 e he a _ hget c hc
      have hin := hm4 e he _ (List.getElem_mem ha')
      by_cases hh : ∃ i' : Fin neq, Hit (opr e) neq (nd * a + c) i'
      · obtain ⟨i', hi'⟩ := hh
        rw [(hue _).1 i' hi', (hU _ hin c hc).1 i' ((hiff _).1 hi')]
      · push Not at hh
        rw [(hue _).2 hh, (hU _ hin c hc).2 fun i' hi' => hh i' ((hiff _).2 hi')]
    have hK : Kg.mulVec u i = ∑ e ∈ Finset.range elements.length,
        ∑ j : Fin neq, scatter (opr e) neq (rowsOf (loc e).1) (cell (g (loc e))) i j * u j := by
      unfold Matrix.mulVec dotProduct
      rw [Finset.sum_comm]
      refine Finset.sum_congr rfl fun j' _ => ?_
      show Kg i j' * u j' = _
      rw [h2 i j', Finset.sum_mul]
    rw [hK]
    unfold internal
    rw [List.map_map, sum_list_range]
    refine Finset.sum_congr rfl fun e he => ?_
    rw [Finset.mem_range] at he
    obtain ⟨ue, hue, hval⟩ := hloc e he
    rw [mulVec_scatter hue, hm3 e he, sum_range_mul]
    simp only [Function.comp]
    refine Finset.sum_congr rfl fun a ha' => ?_
    rw [Finset.mem_range] at ha'
    have hget : (mm e).nodes[a]? = some (mm e).nodes[a] := List.getElem?_eq_getElem ha'
    have hforce : ∀ j', (∑ c ∈ Finset.range (nd * (mm e).nodes.length),
        cell (g (loc e)) (nd * a + j') c * ue c) = (mm e).force nd U a j' := by
      intro j'
      unfold Member.force
      rw [sum_range_mul]
      refine Finset.sum_congr rfl fun b hb => Finset.sum_congr rfl fun c hc => ?_
      rw [hval b (Finset.mem_range.1 hb) c (Finset.mem_range.1 hc), hm2 e he]
    by_cases hp : (mm e).nodes[a]? = some p
    · rw [if_pos hp, Finset.sum_eq_single j]
      · rw [if_pos ((hm5 e he a p hp j hf.1 i).2 hdof), hforce]
      · intro j' hj' hne
        rw [if_neg]
        intro hh
        rw [Finset.mem_range] at hj'
        exact hne (hown.2.2 p j' hj' ((hm5 e he a p hp j' hj' i).1 hh)).2
      · intro hh
        exact absurd (Finset.mem_range.2 hf.1) hh
    · rw [if_neg hp]
      refine Finset.sum_eq_zero fun j' hj' => ?_
      rw [Finset.mem_range] at hj'
      rw [if_neg]
      intro hh
      apply hp
      rw [hget, (hown.2.2 _ j' hj' ((hm5 e he a _ hget j' hj' i).1 hh)).1]

theorem setup_of_assembly {fn : ℤ → Uel K → Prop} {eleFun : ℤ → Py (Uel K)} {uel : Option (Uel K)}
    (hfn : ∀ ty f, (uel = some f ∨ (uel = none ∧ eleFun ty = .ok f)) → fn ty f)
    {cons : Table K} {elements : List (List ℤ)} {mats nodes : Table K} {nd m : ℕ}
    {ndofEl : Option (ℤ → Py ℕ)} {op bc : List (List ℤ)} {neq : ℕ}
    (hd : dme cons elements nd m ndofEl = .ok (op, bc, neq)) (hv : ValidCons cons nd)
    (hw : ∀ r ∈ cons, r.length = nd) (hl : cons.length = nodes.length) (hm0 : 0 < m)
    {sparse : Bool} {Kg Mg : Matrix (Fin neq) (Fin neq) K}
    (ha : assembler eleFun elements mats nodes neq op sparse uel = .ok (Kg, Mg))
    (hrows : ∀ el ∈ elements, ∀ ty f coord params kl ml, el[1]? = some ty →
      (uel = some f ∨ (uel = none ∧ eleFun ty = .ok f)) → coord.length = (el.drop 3).length →
      f coord params = .ok (kl, ml) → rowsOf kl = nd * (el.drop 3).length ∧
        ∃ n, 0 < n ∧ match ndofEl with | none => TypeDofs ty n | some f => f ty = .ok n) :
    ∃ ms, Setup fn cons elements mats nodes nd neq bc Kg ms := by
  obtain ⟨loc, opr, h1, h2⟩ := assembler_scatter ha
  exact setup_of_scatter (g := Prod.fst) (fun ty f coord params r hf h => ⟨f, r.2, hfn ty f hf, h⟩) hd hv hw hl hm0 h1
    (fun i j => (h2 i j).1) hrows

end

section
variable {K : Type} [Field K] [LinearOrder K] [IsStrictOrderedRing K] [FloorRing K]

theorem free_or_fixed {cons : Table K} {nd neq : ℕ} {bc : List (List ℤ)}
    (h : eqcounter cons nd = .ok (neq, bc)) (hv : ValidCons cons nd) {p j : ℕ} (hp : p < cons.length)
    (hj : j < nd) :
    (Free cons nd p j ∧ ∃ i : Fin neq, DofEq bc neq p j i ∧ entry bc p j = some (i : ℤ)) ∨
    (¬ Free cons nd p j ∧ entry bc p j = some (-1) ∧ ∀ i : Fin neq, ¬ DofEq bc neq p j i) := by
  have hw := (eqcounter_shape h).2 (cons[p]) (List.getElem_mem hp)
  have hx : entry cons p j = some (cons[p][j]'(by omega)) :=
    entry_some.2 ⟨cons[p], List.getElem?_eq_getElem hp, List.getElem?_eq_getElem (by omega)⟩
  rcases hv p j _ hj hx with h0 | h0
  · left
    have hf : Free cons nd p j := ⟨hj, 0, by rw [hx, h0], by linarith [zero_lt_one (α := K)],
      zero_lt_one⟩
    obtain ⟨e1, e2⟩ := free_entry h hf
    exact ⟨hf, ⟨_, e2⟩, ⟨_, e1, by omega, e2, Or.inl rfl⟩, e1⟩
  · right
    rw [h0] at hx
    have hm1 : pyTrunc (-1 : K) = -1 := by
      have := pyTrunc_intCast (K := K) (-1)
      simpa using this
    have he : entry bc p j = some (-1) := by rw [eqcounter_entry h hx, if_neg (by omega), hm1]
    refine ⟨?_, he, ?_⟩
    · rintro ⟨_, x, hx', h1, _⟩
      rw [hx, Option.some.injEq] at hx'
      rw [← hx'] at h1
      exact absurd h1 (lt_irrefl _)
    · rintro i ⟨g, hg, hne, _⟩
      rw [he, Option.some.injEq] at hg
      exact hne hg.symm

theorem free_lt {cons : Table K} {nd p j : ℕ} (h : Free cons nd p j) : p < cons.length := by
  obtain ⟨_, x, hx, _⟩ := h
  obtain ⟨row, h1, _⟩ := entry_some.1 hx
  exact (List.getElem?_eq_some_iff.1 h1).1

/-- `U` is the completion of the reduced vector `u`. -/
def Completes (cons : Table K) (bc : List (List ℤ)) (nd neq : ℕ) (u : Fin neq → K) (U : ℕ → ℕ → K) : Prop :=
  ∀ p < cons.length, ∀ j < nd, (∀ i : Fin neq, DofEq bc neq p j i → U p j = u i) ∧
      ((∀ i : Fin neq, ¬ DofEq bc neq p j i) → U p j = 0)

theorem dofEq_unique {bc : List (List ℤ)} {neq p j i i' : ℕ} (h : DofEq bc neq p j i)
    (h' : DofEq bc neq p j i') : i = i' := by
  obtain ⟨g, h1, _, h3⟩ := h
  obtain ⟨g', h1', _, h3'⟩ := h'
  rw [h1, Option.some.injEq] at h1'
  subst h1'
  exact resolves_unique h3 h3'

theorem completes_of_completeDisp {cons : Table K} {nd neq : ℕ} {bc : List (List ℤ)} {u : Fin neq → K}
    {full : Table K} (h : Post.completeDisp bc cons.length u nd = .ok full) :
    Completes cons bc nd neq u (fieldOf full) := by
  intro p hp j hj
  obtain ⟨g, x, hg, hx, hc⟩ := Post.completeDisp_entry h hp hj
  have hfield : fieldOf full p j = x := by unfold fieldOf; rw [hx]; rfl
  rw [hfield]
  rcases hc with ⟨rfl, rfl⟩ | ⟨hne, i, hr, rfl⟩
  · refine ⟨fun i hi => ?_, fun _ => rfl⟩
    obtain ⟨g', hg', hne, _⟩ := hi
    rw [hg, Option.some.injEq] at hg'
    exact absurd hg'.symm hne
  · refine ⟨fun i' hi' => ?_, fun hno => absurd ⟨g, hg, hne, hr⟩ (hno i)⟩
    rw [Fin.ext (dofEq_unique hi' ⟨g, hg, hne, hr⟩)]

theorem exists_completes {cons : Table K} (bc : List (List ℤ)) (nd : ℕ) {neq : ℕ} (u : Fin neq → K) :
    ∃ U, Completes cons bc nd neq u U := by
  classical
  refine ⟨fun p j => if h : ∃ i : Fin neq, DofEq bc neq p j i then u h.choose else 0, ?_⟩
  intro p _ j _
  constructor
  · intro i hi
    have hex : ∃ i : Fin neq, DofEq bc neq p j i := ⟨i, hi⟩
    simp only [dif_pos hex]
    rw [Fin.ext (dofEq_unique hex.choose_spec hi)]
  · intro hno
    dsimp only
    rw [dif_neg]
    rintro ⟨i, hi⟩
    exact hno i hi

theorem exists_reduced {cons : Table K} {nd neq : ℕ} {bc : List (List ℤ)}
    (h : eqcounter cons nd = .ok (neq, bc)) (hv : ValidCons cons nd) {V : ℕ → ℕ → K}
    (ha : Admissible cons nd V) : ∃ v : Fin neq → K, Completes cons bc nd neq v V := by
  have hex : ∀ i : Fin neq, ∃ p j, Free cons nd p j ∧ entry bc p j = some (i : ℤ) := by
    intro i
    obtain ⟨p, j, hf, hr⟩ := exists_free h i.2
    exact ⟨p, j, hf, by rw [(free_entry h hf).1, hr]⟩
  choose P J hf he using hex
  refine ⟨fun i => V (P i) (J i), fun p hp j hj => ⟨fun i hi => ?_, fun hno => ?_⟩⟩
  · have := (owns_of_eqcounter h hv (hf i) (he i) i.2).2.2 p j hj hi
    rw [this.1, this.2]
  · rcases free_or_fixed h hv hp hj with ⟨_, i, hi, _⟩ | ⟨hnf, _⟩
    · exact absurd hi (hno i)
    · exact ha p j hp hj hnf

theorem completes_admissible {cons : Table K} {nd neq : ℕ} {bc : List (List ℤ)}
    (h : eqcounter cons nd = .ok (neq, bc)) (hv : ValidCons cons nd) {u : Fin neq → K} {U : ℕ → ℕ → K}
    (hc : Completes cons bc nd neq u U) : Admissible cons nd U := by
  intro p j hp hj hnf
  rcases free_or_fixed h hv hp hj with ⟨hf, _⟩ | ⟨_, _, hno⟩
  · exact absurd hf hnf
  · exact (hc p hp j hj).2 hno

theorem isLoad_unique {n : ℕ} {loads : Table K} {p j : ℕ} {x y : K} (hx : IsLoad n loads p j x)
    (hy : IsLoad n loads p j y) : x = y := by
  rcases hx with ⟨h1, rfl⟩ | ⟨pre, L, post, rfl, h1, h2, h3⟩
  · rcases hy with ⟨_, rfl⟩ | ⟨pre, L, post, rfl, h4, _, _⟩
    · rfl
    · exact absurd h4 (h1 L (by simp))
  · rcases hy with ⟨h4, _⟩ | ⟨pre', L', post', he, h4, h5, h6⟩
    · exact absurd h1 (h4 L (by simp))
    · have hL : L = L' := by
        clear h3 h6
        induction pre generalizing pre' with
        | nil =>
          cases pre' with
          | nil => simp at he; exact he.1
          | cons a pre' =>
            simp at he
            exact absurd h4 (h2 L' (by rw [he.2]; simp))
        | cons a pre ih =>
          cases pre' with
          | nil =>
            simp at he
            exact absurd h1 (h5 L (by rw [← he.2]; simp))
          | cons b pre' =>
            simp at he
            exact ih pre' he.2
      subst hL
      rw [h3, Option.some.injEq] at h6
      exact h6

theorem rhs_isLoad {cons : Table K} {nd neq : ℕ} {bc : List (List ℤ)} {loads : Table K}
    {rhs : Fin neq → K} (h : eqcounter cons nd = .ok (neq, bc)) (hv : ValidCons cons nd)
    (hl : loadasem loads bc neq nd = .ok rhs) {p j : ℕ} (hf : Free cons nd p j) {i : Fin neq}
    (hi : DofEq bc neq p j i) : IsLoad cons.length loads p j (rhs i) := by
  have hi' : entry bc p j = some (i : ℤ) := by
    obtain ⟨e1, e2⟩ := free_entry h hf
    obtain ⟨g, hg, _, hr⟩ := hi
    rw [e1, Option.some.injEq] at hg
    subst hg
    rw [e1]
    have : Resolves neq (rank cons nd p j : ℤ) (rank cons nd p j) := ⟨e2, Or.inl rfl⟩
    rw [resolves_unique hr this]
  obtain ⟨h1, h2⟩ := C13_load_vector h hv hl hf hi'
  by_cases hn : ∃ L ∈ loads, Names cons.length L p
  · right
    have split : ∀ (l : Table K), (∃ L ∈ l, Names cons.length L p) →
        ∃ pre L post, l = pre ++ L :: post ∧ Names cons.length L p ∧
          ∀ L' ∈ post, ¬ Names cons.length L' p := by
      intro l
      induction l with
      | nil => simp
      | cons a l ih =>
        intro hex
        by_cases hl : ∃ L ∈ l, Names cons.length L p
        · obtain ⟨pre, L, post, rfl, h3, h4⟩ := ih hl
          exact ⟨a :: pre, L, post, rfl, h3, h4⟩
        · obtain ⟨L, hL, hn⟩ := hex
          rcases List.mem_cons.1 hL with rfl | hL
          · exact ⟨[], L, l, rfl, hn, fun L' hL' hn' => hl ⟨L', hL', hn'⟩⟩
          · exact absurd ⟨L, hL, hn⟩ hl
    obtain ⟨pre, L, post, rfl, h3, h4⟩ := split loads hn
    exact ⟨pre, L, post, rfl, h3, h4, h2 pre L post rfl h3 h4⟩
  · left
    push Not at hn
    exact ⟨hn, h1 hn⟩

variable {fn : ℤ → Uel K → Prop} {cons : Table K} {elements : List (List ℤ)} {mats nodes : Table K}
  {nd neq : ℕ} {bc : List (List ℤ)} {Kg : Matrix (Fin neq) (Fin neq) K} {ms : List (Member K)}

/-- A completed reduced vector is in equilibrium exactly when it solves the assembled system. -/
theorem equilibrium_iff (s : Setup fn cons elements mats nodes nd neq bc Kg ms) {loads : Table K}
    {rhs : Fin neq → K} (hl : loadasem loads bc neq nd = .ok rhs) {u : Fin neq → K} {U : ℕ → ℕ → K}
    (hc : Completes cons bc nd neq u U) :
    Equilibrium cons nd loads ms U ↔ Kg.mulVec u = rhs := by
  constructor
  · intro h
    funext i
    obtain ⟨p, j, hf, hr⟩ := exists_free s.eq i.2
    have hi : DofEq bc neq p j i := ⟨i, by rw [(free_entry s.eq hf).1, hr], by omega, i.2, Or.inl rfl⟩
    rw [s.mul u U hc p j i hf hi]
    exact isLoad_unique (h.2 p j hf) (rhs_isLoad s.eq s.valid hl hf hi)
  · intro h
    refine ⟨completes_admissible s.eq s.valid hc, fun p j hf => ?_⟩
    rcases free_or_fixed s.eq s.valid (free_lt hf) hf.1 with ⟨_, i, hi, _⟩ | ⟨hnf, _⟩
    · rw [← s.mul u U hc p j i hf hi, h]
      exact rhs_isLoad s.eq s.valid hl hf hi
    · exact absurd hf hnf

/-- A stable structure has a nonsingular matrix. -/
theorem det_ne_zero_of_stable (s : Setup fn cons elements mats nodes nd neq bc Kg ms)
    (hst : Stable cons nd ms) : Kg.det ≠ 0 := by
  intro h0
  obtain ⟨v, hv0, hv⟩ := Matrix.exists_mulVec_eq_zero_iff.2 h0
  obtain ⟨U, hU⟩ := exists_completes (cons := cons) bc nd v
  apply hv0
  have hz := hst U (completes_admissible s.eq s.valid hU) (fun p j hf => by
    rcases free_or_fixed s.eq s.valid (free_lt hf) hf.1 with ⟨_, i, hi, _⟩ | ⟨hnf, _⟩
    · rw [← s.mul v U hU p j i hf hi, hv]
      rfl
    · exact absurd hf hnf)
  funext i
  obtain ⟨p, j, hf, hr⟩ := exists_free s.eq i.2
  have hi : DofEq bc neq p j i := ⟨i, by rw [(free_entry s.eq hf).1, hr], by omega, i.2, Or.inl rfl⟩
  rw [← (hU p (free_lt hf) j hf.1).1 i hi]
  exact hz p j (free_lt hf) hf.1

/-- Conversely a nonsingular matrix means the structure is stable. -/
theorem stable_of_det_ne_zero (s : Setup fn cons elements mats nodes nd neq bc Kg ms)
    (hdet : Kg.det ≠ 0) : Stable cons nd ms := by
  intro V ha hz p j hp hj
  obtain ⟨v, hv⟩ := exists_reduced s.eq s.valid ha
  have hKv : Kg.mulVec v = 0 := by
    funext i
    obtain ⟨p, j, hf, hr⟩ := exists_free s.eq i.2
    have hi : DofEq bc neq p j i := ⟨i, by rw [(free_entry s.eq hf).1, hr], by omega, i.2, Or.inl rfl⟩
    rw [s.mul v V hv p j i hf hi, hz p j hf]
    rfl
  have hv0 : v = 0 := by
    by_contra hne
    exact hdet (Matrix.exists_mulVec_eq_zero_iff.1 ⟨v, hne, hKv⟩)
  rcases free_or_fixed s.eq s.valid hp hj with ⟨_, i, hi, _⟩ | ⟨hnf, _⟩
  · rw [(hv p hp j hj).1 i hi, hv0]
    rfl
  · exact ha p j hp hj hnf

/-- The reduced form of two vectors is the sum of the element forms on their completions. -/
theorem reduced_form (s : Setup fn cons elements mats nodes nd neq bc Kg ms) {v u : Fin neq → K}
    {V U : ℕ → ℕ → K} (hv : Completes cons bc nd neq v V) (hu : Completes cons bc nd neq u U) :
    ∑ i, v i * Kg.mulVec u i = (ms.map fun m => m.form nd V U).sum := by
  classical
  rw [← virtual_work s.inn V U, ← Finset.sum_product']
  have h1 : ∀ i : Fin neq, v i * Kg.mulVec u i =
      ∑ x ∈ Finset.range cons.length ×ˢ Finset.range nd,
        if DofEq bc neq x.1 x.2 i then V x.1 x.2 * internal nd ms U x.1 x.2 else 0 := by
    intro i
    obtain ⟨p, j, hf, hr⟩ := exists_free s.eq i.2
    have he : entry bc p j = some (i : ℤ) := by rw [(free_entry s.eq hf).1, hr]
    have hi : DofEq bc neq p j i := ⟨i, he, by omega, i.2, Or.inl rfl⟩
    rw [Finset.sum_eq_single (p, j)]
    · rw [if_pos hi, (hv p (free_lt hf) j hf.1).1 i hi, s.mul u U hu p j i hf hi]
    · rintro ⟨p', j'⟩ hm hne
      rw [Finset.mem_product, Finset.mem_range, Finset.mem_range] at hm
      rw [if_neg]
      intro hd
      have := (owns_of_eqcounter s.eq s.valid hf he i.2).2.2 p' j' hm.2 hd
      exact hne (Prod.ext this.1 this.2)
    · intro hm
      exact absurd (Finset.mem_product.2 ⟨Finset.mem_range.2 (free_lt hf), Finset.mem_range.2 hf.1⟩) hm
  rw [Finset.sum_congr rfl fun i _ => h1 i, Finset.sum_comm]
  refine Finset.sum_congr rfl fun x hx => ?_
  rw [Finset.mem_product, Finset.mem_range, Finset.mem_range] at hx
  by_cases hex : ∃ i : Fin neq, DofEq bc neq x.1 x.2 i
  · obtain ⟨i, hi⟩ := hex
    rw [Finset.sum_eq_single i]
    · rw [if_pos hi]
    · intro i' _ hne
      rw [if_neg]
      intro hd
      exact hne (Fin.ext (dofEq_unique hd hi))
    · intro hm; exact absurd (Finset.mem_univ i) hm
  · push Not at hex
    rw [(hv x.1 hx.1 x.2 hx.2).2 hex, zero_mul]
    exact Finset.sum_eq_zero fun i _ => by rw [if_neg (hex i)]

/-- In a stable structure two equilibrium fields for the same loads agree. -/
theorem equilibrium_unique {loads : Table K} (hst : Stable cons nd ms) {U V : ℕ → ℕ → K}
    (hU : Equilibrium cons nd loads ms U) (hV : Equilibrium cons nd loads ms V) :
    ∀ p j, p < cons.length → j < nd → U p j = V p j := by
  intro p j hp hj
  have := hst (fun p j => 1 * U p j + (-1) * V p j) (by
    intro p j hp hj hnf
    dsimp only
    rw [hU.1 p j hp hj hnf, hV.1 p j hp hj hnf]
    ring) (by
    intro p j hf
    rw [internal_linear, isLoad_unique (hU.2 p j hf) (hV.2 p j hf)]
    ring) p j hp hj
  linear_combination this

end

end SolidsPy
