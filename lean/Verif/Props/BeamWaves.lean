import Verif.Props.BeamModes
import Verif.Props.BlochChain

/-! # C159: bending waves in a periodic beam -/

set_option linter.unusedSectionVars false

namespace SolidsPy
open Spec Assem Matrix Bloch

section
variable {K : Type} [Field K] [LinearOrder K] [IsStrictOrderedRing K] [FloorRing K]
variable {sq : K → K} {cons mats nodes : Table K} {elements : List (List ℤ)} {ms : List (Member K)}
  {n : ℕ} {h EI γ : K} {op bc : List (List ℤ)} {neq : ℕ} {sparse : Bool}

/-- `n` equal beams of length `h` in a line along the first axis, of either kind, with bending stiffness `EI` and mass per length
`γ`.  All nodes may move across the line and turn. -/
structure Spec.PeriodicBeam (cons mats nodes : Table K) (elements : List (List ℤ)) (n : ℕ) (h EI γ : K) : Prop where
  count : nodes.length = n + 1
  number : elements.length = n
  beam : ∃ x y, ∀ e < n, ∃ el EA ν, elements[e]? = some el ∧ IsBeam mats nodes el e (e + 1) (ends x y h e) h EI EA γ ν
  cons : cons = List.replicate (n + 1) [-1, 0, 0]

theorem Spec.PeriodicBeam.row (hb : PeriodicBeam cons mats nodes elements n h EI γ) {p : ℕ} {r : List K} (hp : cons[p]? = some r) :
    p ≤ n ∧ r = [-1, 0, 0] := by
  rw [hb.cons, List.getElem?_replicate] at hp
  split at hp
  · rename_i hlt
    exact ⟨by omega, (Option.some.inj hp).symm⟩
  · cases hp

theorem Spec.PeriodicBeam.rows (hb : PeriodicBeam cons mats nodes elements n h EI γ) : cons.length = n + 1 := by
  rw [hb.cons, List.length_replicate]

theorem Spec.PeriodicBeam.frame (hb : PeriodicBeam cons mats nodes elements n h EI γ) : Frame cons nodes elements where
  codes := by
    intro i j v hj hv
    obtain ⟨row, h1, h2⟩ := entry_some.1 hv
    obtain ⟨-, rfl⟩ := hb.row h1
    rcases (by omega : j = 0 ∨ j = 1 ∨ j = 2) with rfl | rfl | rfl <;> simp at h2 <;> rw [← h2] <;> simp
  width := by
    intro r hr
    obtain ⟨i, h1⟩ := List.mem_iff_getElem?.1 hr
    rw [(hb.row h1).2]
    rfl
  size := by rw [hb.rows, hb.count]
  beams := by
    intro el hel
    obtain ⟨e, he, rfl⟩ := List.mem_iff_getElem.1 hel
    obtain ⟨x, y, H⟩ := hb.beam
    obtain ⟨el, EA, ν, h1, h2⟩ := H e (by rw [← hb.number]; exact he)
    rw [List.getElem?_eq_getElem he, Option.some.injEq] at h1
    rw [h1]
    exact ⟨beam_type h2, by rw [h2.ends.length_eq]; rfl⟩

theorem Spec.PeriodicBeam.free_iff (hb : PeriodicBeam cons mats nodes elements n h EI γ) {p j : ℕ} :
    Free cons 3 p j ↔ (j = 1 ∨ j = 2) ∧ p ≤ n := by
  constructor
  · rintro ⟨hj, v, hv, v1, v2⟩
    obtain ⟨row, h1, h2⟩ := entry_some.1 hv
    obtain ⟨hp, rfl⟩ := hb.row h1
    refine ⟨?_, hp⟩
    rcases (by omega : j = 0 ∨ j = 1 ∨ j = 2) with rfl | rfl | rfl
    · simp at h2
      rw [← h2] at v1
      exact absurd v1 (lt_irrefl _)
    · exact .inl rfl
    · exact .inr rfl
  · rintro ⟨hj, hp⟩
    have hr : cons[p]? = some [-1, 0, 0] := by rw [hb.cons, List.getElem?_replicate, if_pos (by omega)]
    refine ⟨by omega, 0, entry_some.2 ⟨_, hr, ?_⟩, by linarith [zero_lt_one (α := K)], zero_lt_one⟩
    rcases hj with rfl | rfl <;> rfl

theorem beam_trunc : ([-1, 0, 0] : List K).map pyTrunc = [-1, 0, 0] := by
  have h0 : pyTrunc (0 : K) = 0 := by simp [pyTrunc]
  have h1 : pyTrunc (-1 : K) = -1 := by
    have : ¬ ((1 : K) ≤ 0) := by simp
    simp [pyTrunc, this]
    exact_mod_cast Int.ceil_intCast (R := K) (-1)
  simp [h0, h1]

theorem beam_zeros (m : ℕ) : zerosTab 3 (truncTab (List.replicate m [(-1 : K), 0, 0])) = 2 * m := by
  induction m with
  | zero => rfl
  | succ m ih =>
    rw [List.replicate_succ]
    simp only [truncTab, List.map_cons, zerosTab_cons] at ih ⊢
    rw [ih]
    have := beam_trunc (K := K)
    simp only [List.map_cons, List.map_nil] at this
    simp only [List.map_nil, this]
    have : zeros (List.take 3 [(-1 : ℤ), 0, 0]) = 2 := by decide
    omega

/-- The deflection of node `p` has equation `2 p`, its rotation the next one. -/
theorem Spec.PeriodicBeam.numbering (hb : PeriodicBeam cons mats nodes elements n h EI γ) (h1 : dme cons elements 3 = .ok (op, bc, neq)) :
    neq = 2 * (n + 1) ∧ ∀ p ≤ n, ∀ j < 2, DofEq bc neq p (j + 1) (2 * p + j) := by
  have heq := (dme_ok.1 h1).1
  have hneq : neq = 2 * (n + 1) := by rw [eqcounter_neq heq, hb.cons, beam_zeros]
  refine ⟨hneq, fun p hp j hj => ?_⟩
  obtain ⟨c1, c2⟩ := free_entry heq (hb.free_iff.2 ⟨by omega, hp⟩ : Free cons 3 p (j + 1))
  have hrank : Assem.rank cons 3 p (j + 1) = 2 * p + j := by
    unfold Assem.rank
    have e1 : (truncTab cons).take p = truncTab (List.replicate p [(-1 : K), 0, 0]) := by
      rw [hb.cons]
      unfold truncTab
      rw [List.map_replicate, List.map_replicate, List.take_replicate]
      congr 1
      omega
    have e2 : (truncTab cons)[p]? = some [-1, 0, 0] := by
      unfold truncTab
      rw [hb.cons, List.getElem?_map, List.getElem?_replicate, if_pos (by omega), Option.map_some, beam_trunc]
    rw [e1, beam_zeros, e2]
    rcases (by omega : j = 0 ∨ j = 1) with rfl | rfl
    · have : zeros (List.take (0 + 1) ((some [(-1 : ℤ), 0, 0]).getD [])) = 0 := by decide
      omega
    · have : zeros (List.take (1 + 1) ((some [(-1 : ℤ), 0, 0]).getD [])) = 1 := by decide
      omega
  rw [hrank] at c1
  exact ⟨_, c1, by omega, by omega, .inl rfl⟩

theorem Spec.PeriodicBeam.springs (hb : PeriodicBeam cons mats nodes elements n h EI γ) (hs : SqrtFn sq)
    (hms : List.Forall₂ (IsMember (Routine sq) mats nodes) elements ms) (e : ℕ) (he : e < ms.length) :
    ms[e].nodes = [e, e + 1] ∧ ∀ U, BeamEnds ms[e] e h EI U := by
  obtain ⟨x, y, H⟩ := hb.beam
  have he' : e < elements.length := by rw [hms.length_eq]; exact he
  obtain ⟨el, EA, ν, h1, h2⟩ := H e (by rw [← hb.number]; exact he')
  have hm := hms.get (i := e) he' he
  rw [List.get_eq_getElem, List.get_eq_getElem] at hm
  rw [List.getElem?_eq_getElem he', Option.some.injEq] at h1
  rw [h1] at hm
  exact beam_endForces hs h2 hm

theorem Spec.PeriodicBeam.inertias (hb : PeriodicBeam cons mats nodes elements n h EI γ) (hs : SqrtFn sq)
    (hms : List.Forall₂ (IsMember (MassRoutine sq) mats nodes) elements ms) (e : ℕ) (he : e < ms.length) :
    ms[e].nodes = [e, e + 1] ∧ ∀ U, InertiaEnds ms[e] e h γ U := by
  obtain ⟨x, y, H⟩ := hb.beam
  have he' : e < elements.length := by rw [hms.length_eq]; exact he
  obtain ⟨el, EA, ν, h1, h2⟩ := H e (by rw [← hb.number]; exact he')
  have hm := hms.get (i := e) he' he
  rw [List.get_eq_getElem, List.get_eq_getElem] at hm
  rw [List.getElem?_eq_getElem he', Option.some.injEq] at h1
  rw [h1] at hm
  exact beam_endInertia hs h2 hm

theorem Spec.PeriodicBeam.exists_members (hb : PeriodicBeam cons mats nodes elements n h EI γ) (hs : SqrtFn sq) :
    ∃ ms, List.Forall₂ (IsMember (Routine sq) mats nodes) elements ms := by
  have key : ∀ el ∈ elements, ∃ m, IsMember (Routine sq) mats nodes el m := by
    intro el hel
    obtain ⟨e, he, rfl⟩ := List.mem_iff_getElem.1 hel
    obtain ⟨x, y, H⟩ := hb.beam
    obtain ⟨el, EA, ν, h1, h2⟩ := H e (by rw [← hb.number]; exact he)
    rw [List.getElem?_eq_getElem he, Option.some.injEq] at h1
    rw [h1]
    exact h2.exists_member hs
  clear hb
  induction elements with
  | nil => exact ⟨[], .nil⟩
  | cons el els ih =>
    obtain ⟨ms, h1⟩ := ih fun el hel => key el (by simp [hel])
    obtain ⟨m, h2⟩ := key el (by simp)
    exact ⟨m :: ms, .cons h2 h1⟩

theorem Spec.PeriodicBeam.long (hb : PeriodicBeam cons mats nodes elements n h EI γ) (hn : 0 < n) : 0 < h := by
  obtain ⟨x, y, H⟩ := hb.beam
  obtain ⟨el, EA, ν, -, h2⟩ := H 0 hn
  exact h2.length.1

end

/-! ## The forces of a line of beams -/

/-- Forces at the nodes of a line of `n` elements with forces `A` at the first and `B` at the second end. -/
def lineForce {F : Type} [Field F] (n : ℕ) (A B : ℕ → ℕ → F) (p j : ℕ) : F :=
  (if 0 < p then B (p - 1) j else 0) + if p < n then A p j else 0

section
variable {F : Type} [Field F]

/-- Elastic force (`j = 0`) and moment (`j = 1`) at the first end of element `e`. -/
def stiffA (h EI : F) (U : ℕ → ℕ → F) (e j : ℕ) : F :=
  if j = 0 then EI / h ^ 3 * (12 * (U e 1 - U (e + 1) 1) + 6 * h * (U e 2 + U (e + 1) 2))
  else EI / h ^ 2 * (6 * (U e 1 - U (e + 1) 1) + h * (4 * U e 2 + 2 * U (e + 1) 2))

/-- The same at the second end. -/
def stiffB (h EI : F) (U : ℕ → ℕ → F) (e j : ℕ) : F :=
  if j = 0 then EI / h ^ 3 * (12 * (U (e + 1) 1 - U e 1) - 6 * h * (U e 2 + U (e + 1) 2))
  else EI / h ^ 2 * (6 * (U e 1 - U (e + 1) 1) + h * (2 * U e 2 + 4 * U (e + 1) 2))

/-- Inertia force and moment at the first end of element `e`. -/
def massA (h γ : F) (U : ℕ → ℕ → F) (e j : ℕ) : F :=
  if j = 0 then γ * h / 420 * (156 * U e 1 + 22 * h * U e 2 + 54 * U (e + 1) 1 - 13 * h * U (e + 1) 2)
  else γ * h ^ 2 / 420 * (22 * U e 1 + 4 * h * U e 2 + 13 * U (e + 1) 1 - 3 * h * U (e + 1) 2)

/-- The same at the second end. -/
def massB (h γ : F) (U : ℕ → ℕ → F) (e j : ℕ) : F :=
  if j = 0 then γ * h / 420 * (54 * U e 1 + 13 * h * U e 2 + 156 * U (e + 1) 1 - 22 * h * U (e + 1) 2)
  else γ * h ^ 2 / 420 * (-13 * U e 1 - 3 * h * U e 2 - 22 * U (e + 1) 1 + 4 * h * U (e + 1) 2)

end

section
variable {K : Type} [Field K] [LinearOrder K] [IsStrictOrderedRing K] [FloorRing K]
variable {sq : K → K} {cons mats nodes : Table K} {elements : List (List ℤ)} {ms : List (Member K)} {fn : ℤ → Uel K → Prop}
  {n : ℕ} {h EI γ : K} {op bc : List (List ℤ)} {sparse : Bool} {Kg Mg : Matrix (Fin (2 * (n + 1))) (Fin (2 * (n + 1))) K}

theorem Spec.PeriodicBeam.mul (hb : PeriodicBeam cons mats nodes elements n h EI γ) (h1 : dme cons elements 3 = .ok (op, bc, 2 * (n + 1)))
    (s : Setup fn cons elements mats nodes 3 (2 * (n + 1)) bc Kg ms) {A B : (ℕ → ℕ → K) → ℕ → ℕ → K}
    (hf : ∀ e (he : e < ms.length), ms[e].nodes = [e, e + 1] ∧ ∀ U, ∀ j < 2, ms[e].force 3 U 0 (j + 1) = A U e j ∧ ms[e].force 3 U 1 (j + 1) = B U e j)
    (hA : ∀ U V : ℕ → ℕ → K, ∀ e < n, (∀ p ≤ n, ∀ j < 2, U p (j + 1) = V p (j + 1)) → ∀ j, A U e j = A V e j ∧ B U e j = B V e j)
    (U : ℕ → ℕ → K) (i : Fin (2 * (n + 1))) :
    Kg.mulVec (fun i : Fin (2 * (n + 1)) => U ((i : ℕ) / 2) ((i : ℕ) % 2 + 1)) i = lineForce n (A U) (B U) ((i : ℕ) / 2) ((i : ℕ) % 2) := by
  have hlen : ms.length = n := by rw [← s.mem.length_eq, hb.number]
  obtain ⟨V, hV⟩ := exists_completes (cons := cons) bc 3 (fun i : Fin (2 * (n + 1)) => U ((i : ℕ) / 2) ((i : ℕ) % 2 + 1))
  have hnum := (hb.numbering h1).2
  have hUV : ∀ p ≤ n, ∀ j < 2, V p (j + 1) = U p (j + 1) := by
    intro p hp j hj
    rw [(hV p (by rw [hb.rows]; omega) (j + 1) (by omega)).1 ⟨2 * p + j, by omega⟩ (hnum p hp j hj)]
    show U ((2 * p + j) / 2) ((2 * p + j) % 2 + 1) = _
    rw [show (2 * p + j) / 2 = p by omega, show (2 * p + j) % 2 = j by omega]
  have hp : (i : ℕ) / 2 ≤ n := by omega
  have hj : (i : ℕ) % 2 < 2 := by omega
  have hi := hnum _ hp _ hj
  rw [show 2 * ((i : ℕ) / 2) + (i : ℕ) % 2 = i by omega] at hi
  rw [s.mul _ V hV _ _ i (hb.free_iff.2 ⟨by omega, hp⟩) hi, line_internal_all hlen (fun e he => (hf e he).1) 3 V]
  unfold lineForce
  congr 1
  · by_cases h0 : 0 < (i : ℕ) / 2
    · rw [dif_pos ⟨h0, by omega⟩, if_pos h0, ((hf _ (by omega)).2 V _ hj).2]
      exact (hA V U _ (by omega) hUV _).2
    · rw [dif_neg (by tauto), if_neg h0]
  · by_cases h0 : (i : ℕ) / 2 < n
    · rw [dif_pos (by omega), if_pos h0, ((hf _ (by omega)).2 V _ hj).1]
      exact (hA V U _ (by omega) hUV _).1
    · rw [dif_neg (by omega), if_neg h0]

theorem Spec.PeriodicBeam.stiff_mul (hb : PeriodicBeam cons mats nodes elements n h EI γ) (hs : SqrtFn sq)
    (h1 : dme cons elements 3 = .ok (op, bc, 2 * (n + 1)))
    (h2 : assembler (Uel.eleFun sq) elements mats nodes (2 * (n + 1)) op sparse = .ok (Kg, Mg)) (U : ℕ → ℕ → K) (i : Fin (2 * (n + 1))) :
    Kg.mulVec (fun i : Fin (2 * (n + 1)) => U ((i : ℕ) / 2) ((i : ℕ) % 2 + 1)) i =
      lineForce n (stiffA h EI U) (stiffB h EI U) ((i : ℕ) / 2) ((i : ℕ) % 2) := by
  obtain ⟨ms, s⟩ := frame_setup hb.frame h1 h2
  refine hb.mul h1 s (fun e he => ⟨(hb.springs hs s.mem e he).1, fun U j hj => ?_⟩) (fun U V e he hUV j => ?_) U i
  · have hE := (hb.springs hs s.mem e he).2 U
    rcases (by omega : j = 0 ∨ j = 1) with rfl | rfl
    · exact ⟨hE.f01, hE.f11⟩
    · exact ⟨hE.f02, hE.f12⟩
  · simp only [stiffA, stiffB]
    have q1 := hUV e he.le 0 (by omega)
    have q2 := hUV e he.le 1 (by omega)
    have q3 := hUV (e + 1) he 0 (by omega)
    have q4 := hUV (e + 1) he 1 (by omega)
    norm_num at q1 q2 q3 q4
    rw [q1, q2, q3, q4]
    exact ⟨rfl, rfl⟩

theorem Spec.PeriodicBeam.mass_mul (hb : PeriodicBeam cons mats nodes elements n h EI γ) (hs : SqrtFn sq)
    (h1 : dme cons elements 3 = .ok (op, bc, 2 * (n + 1)))
    (h2 : assembler (Uel.eleFun sq) elements mats nodes (2 * (n + 1)) op sparse = .ok (Kg, Mg)) (U : ℕ → ℕ → K) (i : Fin (2 * (n + 1))) :
    Mg.mulVec (fun i : Fin (2 * (n + 1)) => U ((i : ℕ) / 2) ((i : ℕ) % 2 + 1)) i =
      lineForce n (massA h γ U) (massB h γ U) ((i : ℕ) / 2) ((i : ℕ) % 2) := by
  obtain ⟨ms, s⟩ := frame_mass_setup hb.frame h1 h2
  refine hb.mul h1 s (fun e he => ⟨(hb.inertias hs s.mem e he).1, fun U j hj => ?_⟩) (fun U V e he hUV j => ?_) U i
  · have hE := (hb.inertias hs s.mem e he).2 U
    rcases (by omega : j = 0 ∨ j = 1) with rfl | rfl
    · exact ⟨hE.f01, hE.f11⟩
    · exact ⟨hE.f02, hE.f12⟩
  · simp only [massA, massB]
    have q1 := hUV e he.le 0 (by omega)
    have q2 := hUV e he.le 1 (by omega)
    have q3 := hUV (e + 1) he 0 (by omega)
    have q4 := hUV (e + 1) he 1 (by omega)
    norm_num at q1 q2 q3 q4
    rw [q1, q2, q3, q4]
    exact ⟨rfl, rfl⟩

end

/-! ## The Bloch analysis -/

/-- The data of a Bloch analysis of the beam with wave vector `(κ, κ')`: the last node is the image of the first, in deflection and
rotation. -/
structure Spec.BeamWave (nodes : Table ℝ) (n : ℕ) (κ κ' : ℝ) (refDof imaDof : ℤ → Option (List ℤ)) (newNum : List ℤ)
    (T : Matrix (Fin (2 * (n + 1))) (Fin (2 * (n + 1) - [(0 : ℤ), 1].length)) ℂ) : Prop where
  cells : 0 < n
  refs : refDof 0 = some [0, 1]
  imas : imaDof n = some [2 * (n : ℤ), 2 * n + 1]
  numbers : reassignDof (2 * (n + 1)) [2 * (n : ℤ), 2 * n + 1] [0, 1] = .ok newNum
  matrix : blochTransformMat [κ, κ'] (nodes.map (List.drop 1)) (2 * (n + 1)) [0] [(n : ℤ)] [0, 1] [2 * (n : ℤ), 2 * n + 1] refDof imaDof
    newNum = .ok T

section
variable {sq : ℝ → ℝ} {cons mats nodes : Table ℝ} {elements : List (List ℤ)} {n : ℕ} {h EI γ κ κ' : ℝ} {op bc : List (List ℤ)}
  {refDof imaDof : ℤ → Option (List ℤ)} {newNum : List ℤ} {sparse : Bool}
  {T : Matrix (Fin (2 * (n + 1))) (Fin (2 * (n + 1) - [(0 : ℤ), 1].length)) ℂ}
  {Kg Mg : Matrix (Fin (2 * (n + 1))) (Fin (2 * (n + 1))) ℝ}

theorem beam_numbers (hN : reassignDof (2 * (n + 1)) [2 * (n : ℤ), 2 * n + 1] [0, 1] = .ok newNum) :
    newNum.length = 2 * (n + 1) ∧ ∀ p < 2 * n, newNum[p]? = some (p : ℤ) := by
  obtain ⟨h1, h2⟩ := reassign_ok hN
  have below : ∀ p ≤ 2 * n, imagesBelow [2 * (n : ℤ), 2 * n + 1] p = 0 := by
    intro p
    induction p with
    | zero => exact fun _ => rfl
    | succ p ih =>
      intro hp
      rw [imagesBelow_succ, ih (by omega), if_neg]
      simp
      omega
  refine ⟨h1, fun p hp => ?_⟩
  obtain ⟨x, hx, h3⟩ := h2 p (by omega)
  rcases h3 with ⟨-, h3⟩ | ⟨h3, -⟩
  · rw [hx, h3, below p (by omega)]
    simp
  · simp at h3
    omega

theorem beam_links (hrd : refDof 0 = some [0, 1]) (him : imaDof n = some [2 * (n : ℤ), 2 * n + 1]) :
    links [(n : ℤ)] [0] refDof imaDof = [⟨2 * (n : ℤ), 0, (n : ℤ), 0⟩, ⟨2 * (n : ℤ) + 1, 1, (n : ℤ), 0⟩] := by
  simp [links, hrd, him]

theorem Spec.PeriodicBeam.place (hb : PeriodicBeam cons mats nodes elements n h EI γ) (hn : 0 < n) :
    ∃ x y i0 i1, nodes[0]? = some [i0, x, y] ∧ nodes[n]? = some [i1, x + n * h, y] := by
  obtain ⟨x, y, H⟩ := hb.beam
  obtain ⟨_, _, _, _, h0⟩ := H 0 hn
  obtain ⟨_, _, _, _, h1⟩ := H (n - 1) (by omega)
  obtain ⟨i0, p0⟩ := h0.first
  obtain ⟨i1, p1⟩ := h1.second
  rw [Nat.sub_add_cancel hn] at p1
  refine ⟨x, y, i0, i1, ?_, ?_⟩
  · rw [p0]
    simp [ends]
  · rw [p1]
    simp [ends, Nat.sub_add_cancel hn, Nat.cast_sub hn]

theorem two_lt (j : Fin (2 * (n + 1) - [(0 : ℤ), 1].length)) : (j : ℕ) < 2 * n := by
  have := j.2
  simp only [List.length_cons, List.length_nil] at this
  omega

/-- The transformation of the beam. -/
theorem beam_matrix (hb : PeriodicBeam cons mats nodes elements n h EI γ) (hw : BeamWave nodes n κ κ' refDof imaDof newNum T)
    (i : Fin (2 * (n + 1))) (j : Fin (2 * (n + 1) - [(0 : ℤ), 1].length)) :
    T i j = (if (i : ℕ) = j then 1 else 0) +
      if (i : ℕ) = 2 * n + j then Complex.exp (Complex.I * ((κ * (n * h) : ℝ) : ℂ)) else 0 := by
  obtain ⟨hn, hrd, him, hN, hT⟩ := hw
  obtain ⟨hl, hlow⟩ := beam_numbers hN
  have hlk := beam_links hrd him
  have hj := two_lt j
  have hp : Pairing (2 * (n + 1)) [2 * (n : ℤ), 2 * n + 1] (links [(n : ℤ)] [0] refDof imaDof) := by
    rw [hlk]
    refine ⟨by simp, by simp, ?_, ?_⟩
    · intro e he hm
      simp at hm
      rcases hm with hm | hm
      · exact ⟨_, List.mem_cons_self, by simp [hm]⟩
      · exact ⟨_, List.mem_cons_of_mem _ (List.mem_singleton_self _), by simp [hm]⟩
    · simp
      omega
  obtain ⟨r1, r2⟩ := bloch_rows hT hp
  by_cases hi : (i : ℕ) < 2 * n
  · obtain ⟨c', h3, h4⟩ := r1 i (by simp; omega)
    rw [hlow i hi, Option.some.injEq, Nat.cast_inj] at h3
    rw [h4, if_neg (show ¬ (i : ℕ) = 2 * n + j by omega), add_zero]
    exact if_congr (by rw [h3, Fin.ext_iff]) rfl rfl
  · rw [if_neg (show ¬ (i : ℕ) = j by omega), zero_add]
    obtain ⟨r, hr, hir⟩ : ∃ r : ℕ, r < 2 ∧ (i : ℕ) = 2 * n + r := ⟨i - 2 * n, by omega, by omega⟩
    obtain ⟨e, r', φ, h3, h4, h5, c, h6, h7⟩ := r2 ⟨2 * (n : ℤ) + r, r, (n : ℤ), 0⟩ (by
      rw [hlk]
      rcases (by omega : r = 0 ∨ r = 1) with rfl | rfl <;> simp)
    dsimp only at h3 h4 h5
    obtain rfl : e = i := Fin.ext (by omega)
    have hr0 : (r' : ℕ) = r := by exact_mod_cast h4.symm
    rw [hr0, hlow r (by omega), Option.some.injEq, Nat.cast_inj] at h6
    have hφ : φ = κ * (n * h) := by
      obtain ⟨x, y, i0, i1, p0, p1⟩ := hb.place hn
      refine shift_unique h5 ⟨n, 0, [x + n * h, y], [x, y], ⟨by simp [hb.count], .inl rfl⟩,
        ⟨by simp [hb.count], .inl rfl⟩, by simp [p1], by simp [p0], rfl, ?_⟩
      show _ = ∑ t : Fin 2, _
      rw [Fin.sum_univ_two]
      simp
    rw [h7, hφ]
    exact if_congr (by rw [Fin.ext_iff, ← h6]; omega) rfl rfl

theorem beam_pull (hb : PeriodicBeam cons mats nodes elements n h EI γ) (hw : BeamWave nodes n κ κ' refDof imaDof newNum T)
    (x : ℕ → ℂ) (j : Fin (2 * (n + 1) - [(0 : ℤ), 1].length)) :
    T.conjTranspose.mulVec (fun i => x i) j = x j +
      if (j : ℕ) < 2 then star (Complex.exp (Complex.I * ((κ * (n * h) : ℝ) : ℂ))) * x (2 * n + j) else 0 := by
  have hj := two_lt j
  simp only [Matrix.mulVec, dotProduct, Matrix.conjTranspose_apply]
  have e : ∀ i : Fin (2 * (n + 1)), star (T i j) * x i = (if i = ⟨j, by omega⟩ then x i else 0) +
      if (i : ℕ) = 2 * n + j then star (Complex.exp (Complex.I * ((κ * (n * h) : ℝ) : ℂ))) * x i else 0 := by
    intro i
    rw [beam_matrix hb hw, star_add, add_mul]
    congr 1
    · by_cases hij : (i : ℕ) = j
      · rw [if_pos hij, if_pos (Fin.ext hij), star_one, one_mul]
      · rw [if_neg hij, if_neg (fun e => hij (congrArg Fin.val e)), star_zero, zero_mul]
    · split_ifs
      · rfl
      · rw [star_zero, zero_mul]
  rw [Finset.sum_congr rfl fun i _ => e i, Finset.sum_add_distrib, Finset.sum_ite_eq', if_pos (Finset.mem_univ _)]
  congr 1
  by_cases h2 : (j : ℕ) < 2
  · rw [if_pos h2, Finset.sum_eq_single (⟨2 * n + j, by omega⟩ : Fin (2 * (n + 1)))]
    · rw [if_pos rfl]
    · intro i _ hi
      rw [if_neg (fun e => hi (Fin.ext e))]
    · exact fun hc => absurd (Finset.mem_univ _) hc
  · rw [if_neg h2]
    refine Finset.sum_eq_zero fun i _ => ?_
    rw [if_neg (by omega)]

theorem beam_push (hb : PeriodicBeam cons mats nodes elements n h EI γ) (hw : BeamWave nodes n κ κ' refDof imaDof newNum T) {z : ℂ}
    (hz : z ^ n = Complex.exp (Complex.I * ((κ * (n * h) : ℝ) : ℂ))) (a : ℕ → ℂ) :
    T.mulVec (fun j => z ^ ((j : ℕ) / 2) * a ((j : ℕ) % 2 + 1)) =
      fun i : Fin (2 * (n + 1)) => z ^ ((i : ℕ) / 2) * a ((i : ℕ) % 2 + 1) := by
  have hn := hw.cells
  have hl : 2 * (n + 1) - [(0 : ℤ), 1].length = 2 * n := by simp; omega
  funext i
  simp only [Matrix.mulVec, dotProduct, beam_matrix hb hw i]
  by_cases hi : (i : ℕ) < 2 * n
  · rw [Finset.sum_eq_single (⟨i, by rw [hl]; exact hi⟩ : Fin (2 * (n + 1) - [(0 : ℤ), 1].length))]
    · simp only [if_true]
      rw [if_neg (by omega)]
      ring
    · intro j _ hj
      rw [if_neg (fun e => hj (Fin.ext e.symm)), if_neg (by omega)]
      ring
    · exact fun hc => absurd (Finset.mem_univ _) hc
  · rw [Finset.sum_eq_single (⟨i - 2 * n, by rw [hl]; omega⟩ : Fin (2 * (n + 1) - [(0 : ℤ), 1].length))]
    · rw [if_neg (show ¬ (i : ℕ) = i - 2 * n by omega), if_pos (show (i : ℕ) = 2 * n + (i - 2 * n) by omega), ← hz]
      rw [show ((i : ℕ) - 2 * n) / 2 = 0 by omega, show ((i : ℕ) - 2 * n) % 2 = (i : ℕ) % 2 by omega, show (i : ℕ) / 2 = n by omega]
      ring
    · intro j _ hj
      have := two_lt j
      rw [if_neg (by omega), if_neg (fun e => hj (Fin.ext (by simp; omega)))]
      ring
    · exact fun hc => absurd (Finset.mem_univ _) hc

theorem complex_parts (U : ℕ → ℕ → ℂ) : ∃ R J : ℕ → ℕ → ℝ, U = fun p j => (R p j : ℂ) + (J p j : ℂ) * Complex.I :=
  ⟨fun p j => (U p j).re, fun p j => (U p j).im, by funext p j; exact (Complex.re_add_im _).symm⟩

theorem Spec.PeriodicBeam.stiff_complex (hb : PeriodicBeam cons mats nodes elements n h EI γ) (hs : SqrtFn sq)
    (h1 : dme cons elements 3 = .ok (op, bc, 2 * (n + 1)))
    (h2 : assembler (Uel.eleFun sq) elements mats nodes (2 * (n + 1)) op sparse = .ok (Kg, Mg)) (U : ℕ → ℕ → ℂ) (i : Fin (2 * (n + 1))) :
    (Kg.map Complex.ofReal).mulVec (fun i : Fin (2 * (n + 1)) => U ((i : ℕ) / 2) ((i : ℕ) % 2 + 1)) i =
      lineForce n (stiffA (h : ℂ) EI U) (stiffB (h : ℂ) EI U) ((i : ℕ) / 2) ((i : ℕ) % 2) := by
  obtain ⟨R, J, rfl⟩ := complex_parts U
  rw [map_mulVec, Complex.mk_eq_add_mul_I]
  simp only [Complex.add_re, Complex.add_im, Complex.mul_re, Complex.mul_im, Complex.ofReal_re, Complex.ofReal_im, Complex.I_re,
    Complex.I_im, mul_zero, mul_one, sub_zero, add_zero, zero_add]
  rw [hb.stiff_mul hs h1 h2 R, hb.stiff_mul hs h1 h2 J]
  simp only [lineForce, stiffA, stiffB]
  split_ifs <;> push_cast <;> ring

theorem Spec.PeriodicBeam.mass_complex (hb : PeriodicBeam cons mats nodes elements n h EI γ) (hs : SqrtFn sq)
    (h1 : dme cons elements 3 = .ok (op, bc, 2 * (n + 1)))
    (h2 : assembler (Uel.eleFun sq) elements mats nodes (2 * (n + 1)) op sparse = .ok (Kg, Mg)) (U : ℕ → ℕ → ℂ) (i : Fin (2 * (n + 1))) :
    (Mg.map Complex.ofReal).mulVec (fun i : Fin (2 * (n + 1)) => U ((i : ℕ) / 2) ((i : ℕ) % 2 + 1)) i =
      lineForce n (massA (h : ℂ) γ U) (massB (h : ℂ) γ U) ((i : ℕ) / 2) ((i : ℕ) % 2) := by
  obtain ⟨R, J, rfl⟩ := complex_parts U
  rw [map_mulVec, Complex.mk_eq_add_mul_I]
  simp only [Complex.add_re, Complex.add_im, Complex.mul_re, Complex.mul_im, Complex.ofReal_re, Complex.ofReal_im, Complex.I_re,
    Complex.I_im, mul_zero, mul_one, sub_zero, add_zero, zero_add]
  rw [hb.mass_mul hs h1 h2 R, hb.mass_mul hs h1 h2 J]
  simp only [lineForce, massA, massB]
  split_ifs <;> push_cast <;> ring

/-- The reduction of the forces of a wave. -/
theorem beam_reduce (hb : PeriodicBeam cons mats nodes elements n h EI γ) (hw : BeamWave nodes n κ κ' refDof imaDof newNum T) {z : ℂ}
    (hz : z ^ n = Complex.exp (Complex.I * ((κ * (n * h) : ℝ) : ℂ))) {A B : ℕ → ℕ → ℂ} {gA gB : ℕ → ℂ}
    (hA : ∀ e j, A e j = z ^ e * gA j) (hB : ∀ e j, B e j = z ^ (e + 1) * gB j)
    (j : Fin (2 * (n + 1) - [(0 : ℤ), 1].length)) :
    T.conjTranspose.mulVec (fun i : Fin (2 * (n + 1)) => lineForce n A B ((i : ℕ) / 2) ((i : ℕ) % 2)) j =
      z ^ ((j : ℕ) / 2) * (gA ((j : ℕ) % 2) + gB ((j : ℕ) % 2)) := by
  have hn := hw.cells
  have hj := two_lt j
  rw [beam_pull hb hw (fun i => lineForce n A B (i / 2) (i % 2))]
  unfold lineForce
  rw [if_pos (show (j : ℕ) / 2 < n by omega), hA]
  by_cases h2 : (j : ℕ) < 2
  · rw [if_pos h2, show (2 * n + (j : ℕ)) / 2 = n by omega, if_pos hn, if_neg (lt_irrefl n), show (2 * n + (j : ℕ)) % 2 = (j : ℕ) % 2 by omega,
      hB (n - 1), Nat.sub_add_cancel hn, show (j : ℕ) / 2 = 0 by omega, if_neg (lt_irrefl 0), hz]
    have := star_phase (κ * (n * h))
    linear_combination gB ((j : ℕ) % 2) * this
  · rw [if_neg h2, if_pos (by omega), hB, Nat.sub_add_cancel (by omega)]
    ring

theorem turn_sin (θ : ℝ) : Complex.exp (Complex.I * (θ : ℂ)) - (Complex.exp (Complex.I * (θ : ℂ)))⁻¹ =
    2 * Complex.I * ((Real.sin θ : ℝ) : ℂ) := by
  rw [← Complex.exp_neg]
  push_cast
  rw [Complex.sin]
  have := Complex.I_sq
  ring_nf
  rw [this]
  ring

/-- C159.  The waves: on deflections `a exp(i θ p)` and rotations `b exp(i θ p)` the reduced matrices act as matrices of size two. -/
theorem C159_waves (hb : PeriodicBeam cons mats nodes elements n h EI γ) (hs : SqrtFn sq)
    (h1 : dme cons elements 3 = .ok (op, bc, 2 * (n + 1)))
    (h2 : assembler (Uel.eleFun sq) elements mats nodes (2 * (n + 1)) op sparse = .ok (Kg, Mg))
    (hw : BeamWave nodes n κ κ' refDof imaDof newNum T) (m : ℕ) (a b : ℂ) :
    let θ := rodAngle n h κ m
    let z := Complex.exp (Complex.I * (θ : ℂ))
    let q : Fin (2 * (n + 1) - [(0 : ℤ), 1].length) → ℂ := fun j => z ^ ((j : ℕ) / 2) * if (j : ℕ) % 2 = 0 then a else b
    (T.mulVec q = fun i : Fin (2 * (n + 1)) => z ^ ((i : ℕ) / 2) * if (i : ℕ) % 2 = 0 then a else b) ∧
    (T.conjTranspose * Kg.map Complex.ofReal * T).mulVec q = (fun j : Fin (2 * (n + 1) - [(0 : ℤ), 1].length) => z ^ ((j : ℕ) / 2) * if (j : ℕ) % 2 = 0
      then EI / h ^ 3 * (24 * (1 - Real.cos θ) * a + 12 * Complex.I * Real.sin θ * h * b)
      else EI / h ^ 2 * (-12 * Complex.I * Real.sin θ * a + (8 + 4 * Real.cos θ) * h * b)) ∧
    (T.conjTranspose * Mg.map Complex.ofReal * T).mulVec q = fun j : Fin (2 * (n + 1) - [(0 : ℤ), 1].length) => z ^ ((j : ℕ) / 2) * if (j : ℕ) % 2 = 0
      then γ * h / 420 * ((312 + 108 * Real.cos θ) * a - 26 * Complex.I * Real.sin θ * h * b)
      else γ * h ^ 2 / 420 * (26 * Complex.I * Real.sin θ * a + (8 - 6 * Real.cos θ) * h * b) := by
  intro θ z q
  have hpow := turn_pow (h := h) (κ := κ) hw.cells m
  have hcos := turn_inv θ
  have hsin := turn_sin θ
  have hz0 : z ≠ 0 := Complex.exp_ne_zero _
  change z + z⁻¹ = _ at hcos
  change z - z⁻¹ = _ at hsin
  change z ^ n = _ at hpow
  let c : ℕ → ℂ := fun j => if j = 1 then a else b
  have c1 : c 1 = a := rfl
  have c2 : c 2 = b := rfl
  have hc : ∀ i : ℕ, c (i % 2 + 1) = if i % 2 = 0 then a else b := fun i => if_congr (by omega) rfl rfl
  have hTq : T.mulVec q = fun i : Fin (2 * (n + 1)) => z ^ ((i : ℕ) / 2) * c ((i : ℕ) % 2 + 1) := by
    rw [← beam_push hb hw hpow c]
    congr 1
    funext j
    rw [hc]
  refine ⟨by rw [hTq]; funext i; rw [hc], ?_, ?_⟩
  · rw [← Matrix.mulVec_mulVec, ← Matrix.mulVec_mulVec, hTq]
    have e := hb.stiff_complex hs h1 h2 (fun p j => z ^ p * c j)
    rw [funext e]
    funext j
    rw [beam_reduce hb hw hpow
      (gA := fun j => if j = 0 then (EI : ℂ) / h ^ 3 * (12 * (a - z * a) + 6 * h * (b + z * b))
        else EI / h ^ 2 * (6 * (a - z * a) + h * (4 * b + 2 * z * b)))
      (gB := fun j => if j = 0 then (EI : ℂ) / h ^ 3 * (12 * (a - z⁻¹ * a) - 6 * h * (b + z⁻¹ * b))
        else EI / h ^ 2 * (6 * (z⁻¹ * a - a) + h * (2 * z⁻¹ * b + 4 * b)))]
    · congr 1
      push_cast at hcos hsin ⊢
      split_ifs
      · linear_combination (EI : ℂ) / h ^ 3 * (-12 * a * hcos + 6 * h * b * hsin)
      · linear_combination (EI : ℂ) / h ^ 2 * (-6 * a * hsin + 2 * h * b * hcos)
    · intro e j
      simp only [stiffA, c1, c2, pow_succ]
      split_ifs <;> ring
    · intro e j
      simp only [stiffB, c1, c2, pow_succ]
      split_ifs <;> field_simp
      ring
  · rw [← Matrix.mulVec_mulVec, ← Matrix.mulVec_mulVec, hTq]
    have e := hb.mass_complex hs h1 h2 (fun p j => z ^ p * c j)
    rw [funext e]
    funext j
    rw [beam_reduce hb hw hpow
      (gA := fun j => if j = 0 then (γ : ℂ) * h / 420 * (156 * a + 22 * h * b + 54 * z * a - 13 * h * z * b)
        else γ * h ^ 2 / 420 * (22 * a + 4 * h * b + 13 * z * a - 3 * h * z * b))
      (gB := fun j => if j = 0 then (γ : ℂ) * h / 420 * (54 * z⁻¹ * a + 13 * h * z⁻¹ * b + 156 * a - 22 * h * b)
        else γ * h ^ 2 / 420 * (-13 * z⁻¹ * a - 3 * h * z⁻¹ * b - 22 * a + 4 * h * b))]
    · congr 1
      push_cast at hcos hsin ⊢
      split_ifs
      · linear_combination (γ : ℂ) * h / 420 * (54 * a * hcos - 13 * h * b * hsin)
      · linear_combination (γ : ℂ) * h ^ 2 / 420 * (13 * a * hsin - 3 * h * b * hcos)
    · intro e j
      simp only [massA, c1, c2, pow_succ]
      split_ifs <;> ring
    · intro e j
      simp only [massB, c1, c2, pow_succ]
      split_ifs <;> field_simp

/-- Squares of the frequencies at which the line of beams carries a bending wave that turns by `θ` from node to node. -/
noncomputable def Spec.bendWaveLow (h EI γ θ : ℝ) : ℝ := 420 * EI / (γ * h ^ 4) * bendLow (Real.cos θ)

noncomputable def Spec.bendWaveHigh (h EI γ θ : ℝ) : ℝ := 420 * EI / (γ * h ^ 4) * bendHigh (Real.cos θ)

/-- The two equations of the amplitudes have a solution at the two frequencies only. -/
theorem bend_pencil (hh : 0 < h) (hEI : 0 < EI) (hγ : 0 < γ) (θ : ℝ) (w : ℂ) :
    (∃ a b : ℂ, (a ≠ 0 ∨ b ≠ 0) ∧
      EI / h ^ 3 * (24 * (1 - Real.cos θ) * a + 12 * Complex.I * Real.sin θ * h * b) =
        w * (γ * h / 420 * ((312 + 108 * Real.cos θ) * a - 26 * Complex.I * Real.sin θ * h * b)) ∧
      EI / h ^ 2 * (-12 * Complex.I * Real.sin θ * a + (8 + 4 * Real.cos θ) * h * b) =
        w * (γ * h ^ 2 / 420 * (26 * Complex.I * Real.sin θ * a + (8 - 6 * Real.cos θ) * h * b))) ↔
    w = (bendWaveLow h EI γ θ : ℂ) ∨ w = (bendWaveHigh h EI γ θ : ℂ) := by
  have c0 := Real.neg_one_le_cos θ
  have c1 := Real.cos_le_one θ
  have hsc := Real.sin_sq_add_cos_sq θ
  have hlead := (bend_lead c1).ne'
  have f0 := bend_factor c0 c1 0
  have f1 := bend_factor c0 c1 1
  unfold bendWaveLow bendWaveHigh
  unfold bendQuad at f0 f1
  generalize bendLow (Real.cos θ) = L at *
  generalize bendHigh (Real.cos θ) = H at *
  generalize Real.cos θ = c at *
  generalize Real.sin θ = s at *
  have f0' : 12 * (1 - (c : ℂ)) ^ 2 = 7 * (65 - 36 * c + c ^ 2) * (L * H) := by
    have : 12 * (1 - c) ^ 2 = 7 * (65 - 36 * c + c ^ 2) * (L * H) := by linear_combination f0
    exact_mod_cast this
  have f1' : 12 * (69 + 37 * (c : ℂ) - c ^ 2) = 7 * (65 - 36 * c + c ^ 2) * (L + H) := by
    have : 12 * (69 + 37 * c - c ^ 2) = 7 * (65 - 36 * c + c ^ 2) * (L + H) := by linear_combination f0 - f1
    exact_mod_cast this
  have hsc' : (s : ℂ) ^ 2 + c ^ 2 = 1 := by exact_mod_cast hsc
  have hlead' : (65 - 36 * (c : ℂ) + c ^ 2) ≠ 0 := by exact_mod_cast hlead
  have hh' : (h : ℂ) ≠ 0 := by exact_mod_cast hh.ne'
  have hE' : (EI : ℂ) ≠ 0 := by exact_mod_cast hEI.ne'
  have hγ' : (γ : ℂ) ≠ 0 := by exact_mod_cast hγ.ne'
  have hI := Complex.I_sq
  obtain ⟨t, rfl⟩ : ∃ t : ℂ, w = 420 * EI / (γ * h ^ 4) * t := ⟨γ * h ^ 4 / (420 * EI) * w, by field_simp⟩
  have det : (24 * (1 - (c : ℂ)) - t * (312 + 108 * c)) * (8 + 4 * c - t * (8 - 6 * c)) - (s * (12 + 26 * t)) ^ 2 =
      28 * (65 - 36 * c + c ^ 2) * ((t - L) * (t - H)) := by
    linear_combination -(12 + 26 * t) ^ 2 * hsc' + 4 * f0' - 4 * t * f1'
  have eq1 : ∀ a b : ℂ, (EI / h ^ 3 * (24 * (1 - c) * a + 12 * Complex.I * s * h * b) =
        420 * EI / (γ * h ^ 4) * t * (γ * h / 420 * ((312 + 108 * c) * a - 26 * Complex.I * s * h * b))) ↔
      (24 * (1 - (c : ℂ)) - t * (312 + 108 * c)) * a + Complex.I * h * (s * (12 + 26 * t)) * b = 0 := by
    intro a b
    have e : EI / h ^ 3 * (24 * (1 - c) * a + 12 * Complex.I * s * h * b) -
        420 * EI / (γ * h ^ 4) * t * (γ * h / 420 * ((312 + 108 * c) * a - 26 * Complex.I * s * h * b)) =
        EI / h ^ 3 * ((24 * (1 - (c : ℂ)) - t * (312 + 108 * c)) * a + Complex.I * h * (s * (12 + 26 * t)) * b) := by
      field_simp
      ring
    rw [← sub_eq_zero, e, mul_eq_zero, or_iff_right (by positivity)]
  have eq2 : ∀ a b : ℂ, (EI / h ^ 2 * (-12 * Complex.I * s * a + (8 + 4 * c) * h * b) =
        420 * EI / (γ * h ^ 4) * t * (γ * h ^ 2 / 420 * (26 * Complex.I * s * a + (8 - 6 * c) * h * b))) ↔
      -Complex.I * (s * (12 + 26 * t)) * a + h * (8 + 4 * c - t * (8 - 6 * c)) * b = 0 := by
    intro a b
    have e : EI / h ^ 2 * (-12 * Complex.I * s * a + (8 + 4 * c) * h * b) -
        420 * EI / (γ * h ^ 4) * t * (γ * h ^ 2 / 420 * (26 * Complex.I * s * a + (8 - 6 * c) * h * b)) =
        EI / h ^ 2 * (-Complex.I * (s * (12 + 26 * t)) * a + h * (8 + 4 * c - t * (8 - 6 * c)) * b) := by
      field_simp
      ring
    rw [← sub_eq_zero, e, mul_eq_zero, or_iff_right (by positivity)]
  simp only [eq1, eq2]
  have hu : (420 * EI / (γ * h ^ 4) : ℂ) ≠ 0 := div_ne_zero (mul_ne_zero (by norm_num) hE') (mul_ne_zero hγ' (pow_ne_zero _ hh'))
  have roots : (420 * EI / (γ * h ^ 4) * t = ((420 * EI / (γ * h ^ 4) * L : ℝ) : ℂ) ∨
      420 * EI / (γ * h ^ 4) * t = ((420 * EI / (γ * h ^ 4) * H : ℝ) : ℂ)) ↔ (t - L) * (t - H) = 0 := by
    push_cast
    rw [mul_right_inj' hu, mul_right_inj' hu, mul_eq_zero, sub_eq_zero, sub_eq_zero]
  rw [roots]
  have hdet : (t - L) * (t - H) = 0 ↔ (24 * (1 - (c : ℂ)) - t * (312 + 108 * c)) * (8 + 4 * c - t * (8 - 6 * c)) = (s * (12 + 26 * t)) ^ 2 := by
    rw [← sub_eq_zero (b := (s * (12 + 26 * t)) ^ 2), det, mul_eq_zero (a := 28 * _), or_iff_right (mul_ne_zero (by norm_num) hlead')]
  rw [hdet]
  generalize 24 * (1 - (c : ℂ)) - t * (312 + 108 * c) = P
  generalize 8 + 4 * (c : ℂ) - t * (8 - 6 * c) = Q
  generalize (s : ℂ) * (12 + 26 * t) = S
  constructor
  · rintro ⟨a, b, hab, e1, e2⟩
    have ea : (P * Q - S ^ 2) * a = 0 := by linear_combination Q * e1 - Complex.I * S * e2 - S ^ 2 * a * hI
    have eb : h * (P * Q - S ^ 2) * b = 0 := by linear_combination P * e2 + Complex.I * S * e1 - h * S ^ 2 * b * hI
    rcases hab with h0 | h0
    · exact sub_eq_zero.1 ((mul_eq_zero.1 ea).resolve_right h0)
    · exact sub_eq_zero.1 ((mul_eq_zero.1 ((mul_eq_zero.1 eb).resolve_right h0)).resolve_left hh')
  · intro hPQ
    by_cases hS : S = 0
    · subst hS
      rcases mul_eq_zero.1 (hPQ.trans (by ring)) with h0 | h0
      · exact ⟨1, 0, .inl one_ne_zero, by rw [h0]; ring, by ring⟩
      · exact ⟨0, 1, .inr one_ne_zero, by ring, by rw [h0]; ring⟩
    · exact ⟨Complex.I * h * S, -P, .inl (mul_ne_zero (mul_ne_zero Complex.I_ne_zero hh') hS), by ring, by
        linear_combination -h * S ^ 2 * hI - h * hPQ⟩

/-- C159.  The frequencies of the beam for a given wave vector: two for each of the `n` waves of the cell, and no others. -/
theorem C159_frequencies (hb : PeriodicBeam cons mats nodes elements n h EI γ) (hs : SqrtFn sq) (hEI : 0 < EI) (hγ : 0 < γ)
    (h1 : dme cons elements 3 = .ok (op, bc, 2 * (n + 1)))
    (h2 : assembler (Uel.eleFun sq) elements mats nodes (2 * (n + 1)) op sparse = .ok (Kg, Mg))
    (hw : BeamWave nodes n κ κ' refDof imaDof newNum T) (w : ℂ) :
    (∃ q : Fin (2 * (n + 1) - [(0 : ℤ), 1].length) → ℂ, q ≠ 0 ∧ (T.conjTranspose * Kg.map Complex.ofReal * T).mulVec q =
      w • (T.conjTranspose * Mg.map Complex.ofReal * T).mulVec q) ↔
    ∃ m < n, w = (bendWaveLow h EI γ (rodAngle n h κ m) : ℂ) ∨ w = (bendWaveHigh h EI γ (rodAngle n h κ m) : ℂ) := by
  have hn := hw.cells
  have hh := hb.long hn
  have hl : 2 * (n + 1) - [(0 : ℤ), 1].length = 2 * n := by simp; omega
  constructor
  · rintro ⟨q, hq, he⟩
    let z : Fin n → ℂ := fun m => Complex.exp (Complex.I * (rodAngle n h κ m : ℂ))
    let V : Matrix (Fin n) (Fin n) ℂ := (vandermonde z).transpose
    have hdet : IsUnit V.det := by
      rw [Matrix.det_transpose, isUnit_iff_ne_zero, det_vandermonde_ne_zero_iff]
      exact turn_distinct hn
    have inj := Matrix.mulVec_injective_iff_isUnit.2 ((Matrix.isUnit_iff_isUnit_det _).2 hdet)
    have hV : ∀ (x : Fin n → ℂ) (p : Fin n), V.mulVec x p = ∑ m, z m ^ (p : ℕ) * x m := by
      intro x p
      simp only [V, Matrix.mulVec, dotProduct, Matrix.transpose_apply, vandermonde_apply]
    let a : Fin n → ℂ := V⁻¹.mulVec fun p : Fin n => q ⟨2 * p, by rw [hl]; omega⟩
    let b : Fin n → ℂ := V⁻¹.mulVec fun p : Fin n => q ⟨2 * p + 1, by rw [hl]; omega⟩
    have ha : ∀ p : Fin n, q ⟨2 * p, by rw [hl]; omega⟩ = ∑ m, z m ^ (p : ℕ) * a m := by
      intro p
      rw [← hV, Matrix.mulVec_mulVec, Matrix.mul_nonsing_inv _ hdet, Matrix.one_mulVec]
    have hb' : ∀ p : Fin n, q ⟨2 * p + 1, by rw [hl]; omega⟩ = ∑ m, z m ^ (p : ℕ) * b m := by
      intro p
      rw [← hV, Matrix.mulVec_mulVec, Matrix.mul_nonsing_inv _ hdet, Matrix.one_mulVec]
    have hsum : q = ∑ m : Fin n, fun j : Fin (2 * (n + 1) - [(0 : ℤ), 1].length) =>
        z m ^ ((j : ℕ) / 2) * if (j : ℕ) % 2 = 0 then a m else b m := by
      funext j
      have hj := two_lt j
      rw [Finset.sum_apply]
      by_cases h0 : (j : ℕ) % 2 = 0
      · have := ha ⟨(j : ℕ) / 2, by omega⟩
        simp only [if_pos h0]
        rw [← this]
        congr 1
        exact Fin.ext (by show (j : ℕ) = 2 * ((j : ℕ) / 2); omega)
      · have := hb' ⟨(j : ℕ) / 2, by omega⟩
        simp only [if_neg h0]
        rw [← this]
        congr 1
        exact Fin.ext (by show (j : ℕ) = 2 * ((j : ℕ) / 2) + 1; omega)
    obtain ⟨m, hm⟩ : ∃ m, a m ≠ 0 ∨ b m ≠ 0 := by
      by_contra hno
      push Not at hno
      refine hq ?_
      rw [hsum]
      refine Finset.sum_eq_zero fun m _ => ?_
      funext j
      simp [(hno m).1, (hno m).2]
    refine ⟨m, m.2, (bend_pencil hh hEI hγ _ w).1 ⟨a m, b m, hm, ?_⟩⟩
    have act := fun m : Fin n => (C159_waves hb hs h1 h2 hw m (a m) (b m)).2
    rw [hsum, Matrix.mulVec_sum, Matrix.mulVec_sum, Finset.sum_congr rfl fun m _ => (act m).1, Finset.sum_congr rfl fun m _ => (act m).2] at he
    constructor
    · have e : V.mulVec (fun m => (EI / h ^ 3 * (24 * (1 - Real.cos (rodAngle n h κ m)) * a m +
            12 * Complex.I * Real.sin (rodAngle n h κ m) * h * b m) : ℂ)) =
          V.mulVec fun m => w * (γ * h / 420 * ((312 + 108 * Real.cos (rodAngle n h κ m)) * a m -
            26 * Complex.I * Real.sin (rodAngle n h κ m) * h * b m)) := by
        funext p
        have := congrFun he ⟨2 * p, by rw [hl]; omega⟩
        rw [Pi.smul_apply, Finset.sum_apply, Finset.sum_apply, smul_eq_mul, Finset.mul_sum] at this
        simp only [show 2 * (p : ℕ) / 2 = p by omega, show 2 * (p : ℕ) % 2 = 0 by omega, if_true] at this
        rw [hV, hV, this]
        exact Finset.sum_congr rfl fun m _ => by ring
      exact congrFun (inj e) m
    · have e : V.mulVec (fun m => (EI / h ^ 2 * (-12 * Complex.I * Real.sin (rodAngle n h κ m) * a m +
            (8 + 4 * Real.cos (rodAngle n h κ m)) * h * b m) : ℂ)) =
          V.mulVec fun m => w * (γ * h ^ 2 / 420 * (26 * Complex.I * Real.sin (rodAngle n h κ m) * a m +
            (8 - 6 * Real.cos (rodAngle n h κ m)) * h * b m)) := by
        funext p
        have := congrFun he ⟨2 * p + 1, by rw [hl]; omega⟩
        rw [Pi.smul_apply, Finset.sum_apply, Finset.sum_apply, smul_eq_mul, Finset.mul_sum] at this
        simp only [show (2 * (p : ℕ) + 1) / 2 = p by omega, show (2 * (p : ℕ) + 1) % 2 = 1 by omega, one_ne_zero, if_false] at this
        rw [hV, hV, this]
        exact Finset.sum_congr rfl fun m _ => by ring
      exact congrFun (inj e) m
  · rintro ⟨m, hm, hw'⟩
    obtain ⟨a, b, hab, e1, e2⟩ := (bend_pencil hh hEI hγ _ w).2 hw'
    obtain ⟨-, a1, a2⟩ := C159_waves hb hs h1 h2 hw m a b
    refine ⟨_, ?_, a1.trans ?_⟩
    · intro h0
      rcases hab with hab | hab
      · have := congrFun h0 ⟨0, by rw [hl]; omega⟩
        simp at this
        exact hab this
      · have := congrFun h0 ⟨1, by rw [hl]; omega⟩
        simp at this
        exact hab this
    · rw [a2]
      funext j
      rw [Pi.smul_apply, smul_eq_mul]
      split_ifs
      · rw [e1]
        ring
      · rw [e2]
        ring

/-- C159.  Everything is computed: the matrices of the beam, sparse or dense, the numbers of `reassign_dof_bloch` and the
transformation. -/
theorem C159_returns (hb : PeriodicBeam cons mats nodes elements n h EI γ) (hs : SqrtFn sq) (hn : 0 < n) (κ κ' : ℝ)
    (hrd : refDof 0 = some [0, 1]) (him : imaDof n = some [2 * (n : ℤ), 2 * n + 1]) (sparse : Bool) :
    ∃ op bc Kg Mg newNum T, dme cons elements 3 = .ok (op, bc, 2 * (n + 1)) ∧
      assembler (Uel.eleFun sq) elements mats nodes (2 * (n + 1)) op sparse = .ok (Kg, Mg) ∧
      BeamWave nodes n κ κ' refDof imaDof newNum T := by
  obtain ⟨ms, hms⟩ := hb.exists_members hs
  obtain ⟨op, bc, neq, Kg, Mg, h1, h2⟩ := C117_assembled hb.frame hms sparse
  obtain ⟨rfl, -⟩ := hb.numbering h1
  obtain ⟨newNum, hN⟩ := C83_total (2 * (n + 1)) (ima := [2 * (n : ℤ), 2 * n + 1]) (ref := [0, 1]) le_rfl
  obtain ⟨hl, hlow⟩ := beam_numbers hN
  refine ⟨op, bc, Kg, Mg, newNum, ?_⟩
  suffices h : ∃ T, blochTransformMat [κ, κ'] (nodes.map (List.drop 1)) (2 * (n + 1)) [0] [(n : ℤ)] [0, 1] [2 * (n : ℤ), 2 * n + 1] refDof
      imaDof newNum = .ok T by
    obtain ⟨T, hT⟩ := h
    exact ⟨T, h1, h2, hn, hrd, him, hN, hT⟩
  obtain ⟨x, y, i0, i1, p0, p1⟩ := hb.place hn
  unfold blochTransformMat
  obtain ⟨inner, hin⟩ : ∃ inner, innerEntries (2 * (n + 1)) [2 * (n : ℤ), 2 * n + 1] newNum = .ok inner := by
    unfold innerEntries
    refine mapM_exists.2 fun e he => ?_
    have he : e < 2 * (n + 1) := by simp at he; omega
    exact ⟨_, bind_ok.2 ⟨_, pyGet_nat.2 (List.getElem?_eq_getElem (by omega)), rfl⟩⟩
  have hpair : ∃ φ : ℂ, blochPair [κ, κ'] (nodes.map (List.drop 1)) refDof imaDof newNum ((n : ℤ), 0) =
      .ok [(2 * (n : ℤ), 0, φ), (2 * (n : ℤ) + 1, 1, φ)] := by
    refine ⟨Complex.exp (Complex.I * ((([κ * (x + n * h - x), κ' * (y - y)] : List ℝ).sum : ℝ) : ℂ)), ?_⟩
    unfold blochPair
    dsimp only
    have g1 : (nodes.map (List.drop 1))[n]? = some [x + n * h, y] := by simp [p1]
    have g0 : (nodes.map (List.drop 1))[0]? = some [x, y] := by simp [p0]
    rw [pyGet_nat.2 g1, ok_bind, pyGet_zero.2 g0, ok_bind]
    rw [hrd, him]
    have hz : newNum[0]? = some 0 := hlow 0 (by omega)
    have ho : newNum[1]? = some 1 := hlow 1 (by omega)
    have ho' : pyGet newNum 1 = .ok 1 := pyGet_nat.2 ho
    simp [dot, ok_bind, pyGet_zero.2 hz, ho']
  obtain ⟨φ, hφ⟩ := hpair
  rw [hin, ok_bind, List.zip_cons_cons, List.zip_nil_left, mapM_ok.2 (.cons hφ .nil), ok_bind]
  dsimp only
  rw [if_neg (by simp; omega)]
  unfold cooMatrix
  have hall : ((inner ++ [[(2 * (n : ℤ), (0 : ℤ), φ), (2 * (n : ℤ) + 1, 1, φ)]].flatten).all
      fun t => decide (0 ≤ t.1 ∧ t.1 < ((2 * (n + 1) : ℕ) : ℤ) ∧ 0 ≤ t.2.1 ∧ t.2.1 < ((2 * (n + 1) - [(0 : ℤ), 1].length : ℕ) : ℤ))) = true := by
    rw [List.all_eq_true]
    intro t ht
    rw [decide_eq_true_eq]
    have hl2 : 2 * (n + 1) - [(0 : ℤ), 1].length = 2 * n := by simp; omega
    rw [hl2]
    rcases List.mem_append.1 ht with ht | ht
    · unfold innerEntries at hin
      obtain ⟨k, hk, rfl⟩ := List.mem_iff_getElem.1 ht
      have hf := mapM_ok.1 hin
      have hk' := hf.length_eq
      have := hf.get (i := k) (by omega) hk
      rw [List.get_eq_getElem, List.get_eq_getElem] at this
      obtain ⟨v, g1, g2⟩ := bind_ok.1 this
      have hm := List.getElem_mem (l := List.filter (fun d : ℕ => decide ((d : ℤ) ∉ [2 * (n : ℤ), 2 * n + 1])) (List.range (2 * (n + 1))))
        (n := k) (by omega)
      rw [List.mem_filter] at hm
      generalize (List.filter (fun d : ℕ => decide ((d : ℤ) ∉ [2 * (n : ℤ), 2 * n + 1])) (List.range (2 * (n + 1))))[k] = e at *
      simp at hm
      rw [pyGet_nat, hlow e (by omega), Option.some.injEq] at g1
      rw [← pure_ok.1 g2, ← g1]
      simp
      omega
    · simp at ht
      rcases ht with rfl | rfl
      · simp
        omega
      · simp
        omega
  exact ⟨_, if_pos hall⟩

end

/-- C159.  Computing with a cell of `n` beams instead of one changes nothing but the wave vectors: its frequencies are those of the
cell of one beam at the wave vectors `κ + 2 π m / (n h)`. -/
theorem C159_folding {sq : ℝ → ℝ} {cons mats nodes cons' mats' nodes' : Table ℝ} {elements elements' : List (List ℤ)} {n : ℕ}
    {h EI γ κ κ' : ℝ} {op bc op' bc' : List (List ℤ)} {sparse sparse' : Bool}
    {refDof imaDof refDof' imaDof' : ℤ → Option (List ℤ)} {newNum newNum' : List ℤ}
    {T : Matrix (Fin (2 * (n + 1))) (Fin (2 * (n + 1) - [(0 : ℤ), 1].length)) ℂ} {Kg Mg : Matrix (Fin (2 * (n + 1))) (Fin (2 * (n + 1))) ℝ}
    {T' : ℕ → Matrix (Fin (2 * (1 + 1))) (Fin (2 * (1 + 1) - [(0 : ℤ), 1].length)) ℂ} {Kg' Mg' : Matrix (Fin (2 * (1 + 1))) (Fin (2 * (1 + 1))) ℝ}
    (hs : SqrtFn sq) (hEI : 0 < EI) (hγ : 0 < γ)
    (hb : PeriodicBeam cons mats nodes elements n h EI γ) (h1 : dme cons elements 3 = .ok (op, bc, 2 * (n + 1)))
    (h2 : assembler (Uel.eleFun sq) elements mats nodes (2 * (n + 1)) op sparse = .ok (Kg, Mg))
    (hw : BeamWave nodes n κ κ' refDof imaDof newNum T)
    (hb' : PeriodicBeam cons' mats' nodes' elements' 1 h EI γ) (h1' : dme cons' elements' 3 = .ok (op', bc', 2 * (1 + 1)))
    (h2' : assembler (Uel.eleFun sq) elements' mats' nodes' (2 * (1 + 1)) op' sparse' = .ok (Kg', Mg'))
    (hw' : ∀ m < n, BeamWave nodes' 1 (κ + 2 * Real.pi * m / (n * h)) κ' refDof' imaDof' newNum' (T' m)) (w : ℂ) :
    (∃ q : Fin (2 * (n + 1) - [(0 : ℤ), 1].length) → ℂ, q ≠ 0 ∧ (T.conjTranspose * Kg.map Complex.ofReal * T).mulVec q =
      w • (T.conjTranspose * Mg.map Complex.ofReal * T).mulVec q) ↔
    ∃ m < n, ∃ q : Fin (2 * (1 + 1) - [(0 : ℤ), 1].length) → ℂ, q ≠ 0 ∧
      ((T' m).conjTranspose * Kg'.map Complex.ofReal * T' m).mulVec q =
      w • ((T' m).conjTranspose * Mg'.map Complex.ofReal * T' m).mulVec q := by
  have hn : (n : ℝ) ≠ 0 := by exact_mod_cast hw.cells.ne'
  have hh := (hb.long hw.cells).ne'
  rw [C159_frequencies hb hs hEI hγ h1 h2 hw]
  refine exists_congr fun m => and_congr_right fun hm => ?_
  rw [C159_frequencies hb' hs hEI hγ h1' h2' (hw' m hm)]
  have key : rodAngle n h κ m = rodAngle 1 h (κ + 2 * Real.pi * m / (n * h)) 0 := by
    unfold rodAngle
    field_simp
    simp
  rw [key]
  constructor
  · exact fun e => ⟨0, by omega, e⟩
  · rintro ⟨k, hk, e⟩
    obtain rfl : k = 0 := by omega
    exact e

section
variable {h EI γ : ℝ}

/-- C159.  The two branches, and the gap between them that no wave enters. -/
theorem C159_branches (hh : 0 < h) (hEI : 0 < EI) (hγ : 0 < γ) (θ : ℝ) :
    0 ≤ bendWaveLow h EI γ θ ∧ bendWaveLow h EI γ θ ≤ 1680 / 17 * (EI / (γ * h ^ 4)) ∧
    120 * (EI / (γ * h ^ 4)) ≤ bendWaveHigh h EI γ θ ∧ bendWaveHigh h EI γ θ ≤ 2520 * (EI / (γ * h ^ 4)) ∧
    (bendWaveLow h EI γ θ = 0 ↔ Real.cos θ = 1) := by
  have c0 := Real.neg_one_le_cos θ
  have c1 := Real.cos_le_one θ
  have hu := unit_pos hh hEI hγ
  have hg := bend_gap c0 c1
  have hl0 := bendLow_nonneg c0 c1
  have e : ∀ x : ℝ, x * (EI / (γ * h ^ 4)) = 420 * EI / (γ * h ^ 4) * (x / 420) := fun x => by ring
  have hH : bendHigh (Real.cos θ) ≤ 6 := by
    rcases c1.lt_or_eq with hlt | heq
    · have := (bend_mono c0 hlt le_rfl).2
      rw [bend_at_one.2] at this
      exact this.le
    · rw [heq, bend_at_one.2]
  unfold bendWaveLow bendWaveHigh
  refine ⟨mul_nonneg hu.le hl0, ?_, ?_, ?_, ?_⟩
  · rw [e]
    exact mul_le_mul_of_nonneg_left (hg.1.trans (by norm_num)) hu.le
  · rw [e]
    exact mul_le_mul_of_nonneg_left (le_trans (by norm_num) hg.2) hu.le
  · rw [e]
    exact mul_le_mul_of_nonneg_left (hH.trans (by norm_num)) hu.le
  · rw [mul_eq_zero, or_iff_right hu.ne']
    constructor
    · intro h0
      by_contra hne
      have := (bend_mono c0 (lt_of_le_of_ne c1 hne) le_rfl).1
      rw [bend_at_one.1, h0] at this
      exact lt_irrefl _ this
    · intro h1
      rw [h1, bend_at_one.1]

/-- C159.  The lower branch is never below the frequency of the continuous beam with the same wave number, and above it by no more
than the stated factor. -/
theorem C159_bounds (hh : 0 < h) (hEI : 0 < EI) (hγ : 0 < γ) {k : ℝ} (hk : |k * h| ≤ Real.pi) :
    EI / γ * k ^ 4 ≤ bendWaveLow h EI γ (k * h) ∧
    bendWaveLow h EI γ (k * h) ≤ EI / γ * k ^ 4 * (1 + (k * h) ^ 4 / 720) := by
  obtain ⟨b0, b1⟩ := bendLow_bounds (abs_nonneg _) hk
  have hu := unit_pos hh hEI hγ
  have e4 : |k * h| ^ 4 = (k * h) ^ 4 := by
    rw [show (4 : ℕ) = 2 * 2 by norm_num, pow_mul, pow_mul, sq_abs]
  rw [e4, Real.cos_abs] at b0 b1
  have e : EI / γ * k ^ 4 = 420 * EI / (γ * h ^ 4) * ((k * h) ^ 4 / 420) := by
    field_simp
  unfold bendWaveLow
  rw [e, mul_assoc]
  exact ⟨mul_le_mul_of_nonneg_left b0 hu.le, mul_le_mul_of_nonneg_left b1 hu.le⟩

/-- C159.  Long bending waves follow the law of the continuous beam. -/
theorem C159_long_waves (hh : 0 < h) (hEI : 0 < EI) (hγ : 0 < γ) :
    Filter.Tendsto (fun k : ℝ => bendWaveLow h EI γ (k * h) / k ^ 4) (nhdsWithin 0 {0}ᶜ) (nhds (EI / γ)) := by
  have hup : Filter.Tendsto (fun k : ℝ => EI / γ * (1 + (k * h) ^ 4 / 720)) (nhdsWithin 0 {0}ᶜ) (nhds (EI / γ)) := by
    have : Filter.Tendsto (fun k : ℝ => EI / γ * (1 + (k * h) ^ 4 / 720)) (nhds 0) (nhds (EI / γ * (1 + (0 * h) ^ 4 / 720))) :=
      Continuous.tendsto (by fun_prop) 0
    rw [show EI / γ * (1 + (0 * h) ^ 4 / 720) = EI / γ by ring] at this
    exact this.mono_left nhdsWithin_le_nhds
  have hsmall : ∀ᶠ k : ℝ in nhdsWithin 0 {0}ᶜ, |k * h| ≤ Real.pi := by
    have : Filter.Tendsto (fun k : ℝ => |k * h|) (nhds 0) (nhds |0 * h|) := Continuous.tendsto (by fun_prop) 0
    rw [zero_mul, abs_zero] at this
    exact ((this.eventually (gt_mem_nhds Real.pi_pos)).filter_mono nhdsWithin_le_nhds).mono fun k hk => hk.le
  refine tendsto_of_tendsto_of_tendsto_of_le_of_le' tendsto_const_nhds hup ?_ ?_
  · filter_upwards [hsmall, self_mem_nhdsWithin] with k hk hk0
    have hk0 : k ≠ 0 := hk0
    have hk4 : 0 < k ^ 4 := by positivity
    rw [le_div_iff₀ hk4]
    exact (C159_bounds hh hEI hγ hk).1
  · filter_upwards [hsmall, self_mem_nhdsWithin] with k hk hk0
    have hk0 : k ≠ 0 := hk0
    have hk4 : 0 < k ^ 4 := by positivity
    rw [div_le_iff₀ hk4]
    refine (C159_bounds hh hEI hγ hk).2.trans_eq (by ring)

end

/-- A line of `n` beams of unit stiffness and mass, free to bend. -/
noncomputable def freeBeam (n : ℕ) (h : ℝ) : Table ℝ × List (List ℤ) × Table ℝ × Table ℝ :=
  (List.replicate (n + 1) [-1, 0, 0], (supportedBeam n h).2)

theorem freeBeam_periodic (n : ℕ) {h : ℝ} (hh : 0 < h) : PeriodicBeam (freeBeam n h).1 (freeBeam n h).2.2.1
    (freeBeam n h).2.2.2 (freeBeam n h).2.1 n h 1 1 :=
  have hb := supportedBeam_simple n hh
  ⟨hb.count, hb.number, hb.beam, rfl⟩

/-- Two beams of length one at the wave number `π / 2`: the frequencies of the waves that turn by `π / 2` and by `3 π / 2` from node
to node coincide. -/
example : ∃ op bc Kg Mg newNum T,
    dme (freeBeam 2 1).1 (freeBeam 2 1).2.1 3 = .ok (op, bc, 2 * (2 + 1)) ∧
    assembler (Uel.eleFun Real.sqrt) (freeBeam 2 1).2.1 (freeBeam 2 1).2.2.1 (freeBeam 2 1).2.2.2 (2 * (2 + 1)) op = .ok (Kg, Mg) ∧
    BeamWave (freeBeam 2 1).2.2.2 2 (Real.pi / 2) 0 (fun z => if z = 0 then some [0, 1] else none)
      (fun z => if z = 2 then some [4, 5] else none) newNum T ∧
    ∀ w : ℂ, (∃ q : Fin (2 * (2 + 1) - [(0 : ℤ), 1].length) → ℂ, q ≠ 0 ∧ (T.conjTranspose * Kg.map Complex.ofReal * T).mulVec q =
      w • (T.conjTranspose * Mg.map Complex.ofReal * T).mulVec q) ↔ w = (bendWaveLow 1 1 1 (Real.pi / 2) : ℂ) ∨ w = (bendWaveHigh 1 1 1 (Real.pi / 2) : ℂ) := by
  obtain ⟨op, bc, Kg, Mg, newNum, T, h1, h2, hw⟩ := C159_returns (refDof := fun z => if z = 0 then some [0, 1] else none)
    (imaDof := fun z => if z = 2 then some [4, 5] else none) (freeBeam_periodic 2 one_pos) sqrtFn_real (by omega) (Real.pi / 2) 0
    (by simp) (by simp) true
  refine ⟨op, bc, Kg, Mg, newNum, T, h1, h2, hw, fun w => ?_⟩
  rw [C159_frequencies (freeBeam_periodic 2 one_pos) sqrtFn_real one_pos one_pos h1 h2 hw]
  have a0 : rodAngle 2 1 (Real.pi / 2) 0 = Real.pi / 2 := by unfold rodAngle; simp
  have a1 : Real.cos (rodAngle 2 1 (Real.pi / 2) 1) = Real.cos (Real.pi / 2) := by
    have : rodAngle 2 1 (Real.pi / 2) 1 = 2 * Real.pi - Real.pi / 2 := by unfold rodAngle; push_cast; ring
    rw [this, Real.cos_two_pi_sub]
  constructor
  · rintro ⟨m, hm, hw⟩
    rcases (by omega : m = 0 ∨ m = 1) with rfl | rfl
    · rwa [a0] at hw
    · unfold bendWaveLow bendWaveHigh at hw ⊢
      rwa [a1] at hw
  · intro hw
    exact ⟨0, by omega, by rwa [a0]⟩

/-- The frequencies at the end of the lower and the upper branch, for unit data: a wave that turns by `π` from node to node. -/
example : bendWaveLow 1 1 1 Real.pi = 1680 / 17 ∧ bendWaveHigh 1 1 1 Real.pi = 120 := by
  unfold bendWaveLow bendWaveHigh
  rw [Real.cos_pi, bend_at_minus_one.1, bend_at_minus_one.2]
  norm_num

end SolidsPy
