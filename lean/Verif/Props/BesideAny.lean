import Verif.Props.Beside
import Verif.Props.RunOrders
import Mathlib.LinearAlgebra.Matrix.SchurComplement

/-! # C173: separate frames and separate models of the user's own elements; the matrices and frequencies of separate structures -/

set_option linter.unusedSectionVars false

namespace SolidsPy
open Spec Assem

section
variable {K : Type} [Field K] [LinearOrder K] [IsStrictOrderedRing K] [FloorRing K]
variable {sq : K → K} {a b d : Gui.Data K} {nd n m : ℕ} {ms msa msb : List (Member K)}
variable {sp de : Sol.Solver K} {tab : ℤ → Py (Uel K)} {f : Uel K} {count : ℤ → Py ℕ} {sparse : Bool}

theorem members_beside_of {fn : ℤ → Uel K → Prop} (h : Beside a b d) (ha : List.Forall₂ (IsMember fn a.mats a.nodes) a.elements msa)
    (hb : List.Forall₂ (IsMember fn b.mats b.nodes) b.elements msb) :
    List.Forall₂ (IsMember fn d.mats d.nodes) d.elements (msa ++ msb.map (renameMember (· + a.nodes.length))) := by
  rw [h.elements]
  have hsz := h.size
  refine List.rel_append ?_ ?_
  · have hpl : ∀ el ∈ a.elements, ∀ x ∈ el.drop 2, 0 ≤ x := fun el hel => h.plain el (by simp [hel])
    generalize a.elements = els at ha hpl
    induction ha with
    | nil => exact .nil
    | @cons el m _ _ hd _ ih =>
      refine .cons ?_ (ih fun el hel => hpl el (List.mem_cons_of_mem _ hel))
      rw [← rename_zero m]
      refine isMember_into (s := 0) (t := 0) ?_ ?_ ?_ ?_ rfl ?_ ?_ (hpl el (by simp)) hd
      · rw [h.mats, List.length_append]; omega
      · omega
      · intro q params hq
        rw [h.mats, Nat.add_zero, List.getElem?_append_left (List.getElem?_eq_some_iff.1 hq).1, hq]
      · exact h.nodeA
      · intro mi e; simpa using e
      · simp
  · have hpl : ∀ el ∈ b.elements, ∀ x ∈ el.drop 2, 0 ≤ x := fun el hel => h.plain el (by simp [hel])
    rw [List.forall₂_map_left_iff, List.forall₂_map_right_iff]
    generalize b.elements = els at hb hpl
    induction hb with
    | nil => exact .nil
    | @cons el m _ _ hd _ ih =>
      refine .cons ?_ (ih fun el hel => hpl el (List.mem_cons_of_mem _ hel))
      have hmi : ∃ mi, el[2]? = some mi := by
        obtain ⟨ty, mi, params, rows, f, kl, ml, a1, a2, _⟩ := hd
        exact ⟨mi, a2⟩
      obtain ⟨mi, hmi⟩ := hmi
      obtain ⟨e1, e2, e3⟩ := laterRow_spec a.mats.length a.nodes.length hmi
      refine isMember_into (s := a.mats.length) (t := a.nodes.length) ?_ ?_ ?_ h.nodeB e1 ?_ e3 (hpl el (by simp)) hd
      · rw [h.mats, List.length_append]; omega
      · omega
      · intro q params hq
        rw [h.mats, List.getElem?_append_right (by omega), Nat.add_sub_cancel, hq]
      · intro mi' e
        rw [hmi, Option.some.injEq] at e
        rw [← e]; exact e2

theorem beside_internal_of {N N' : ℕ} (hA : ∀ m ∈ msa, ∀ p ∈ m.nodes, p < N) (hB : ∀ m ∈ msb, ∀ p ∈ m.nodes, p < N') (u : ℕ → ℕ → K)
    (p j : ℕ) :
    (p < N → internal nd (msa ++ msb.map (renameMember (· + N))) u p j = internal nd msa u p j) ∧
    (p < N' → internal nd (msa ++ msb.map (renameMember (· + N))) u (p + N) j = internal nd msb (fun q c => u (q + N) c) p j) := by
  constructor
  · intro hp
    rw [internal_append, internal_outside (l := msb.map _), add_zero]
    intro m hm hpm
    obtain ⟨m', -, rfl⟩ := List.mem_map.1 hm
    obtain ⟨q, -, rfl⟩ := List.mem_map.1 hpm
    omega
  · intro hp
    rw [internal_append, internal_outside (l := msa), zero_add]
    · exact internal_renumber_of (π := (· + N)) (fun p _ q _ e => by simpa using e) hB u hp j
    · intro m hm hpm
      have := hA m hm _ hpm
      omega

theorem beside_free_of (h : Beside a b d) (hsz : a.cons.length = a.nodes.length) (p j : ℕ) :
    (p < a.nodes.length → (Free d.cons nd p j ↔ Free a.cons nd p j)) ∧ (Free d.cons nd (p + a.nodes.length) j ↔ Free b.cons nd p j) := by
  have e1 : p < a.nodes.length → entry d.cons p j = entry a.cons p j := by
    intro hp
    unfold entry
    rw [h.cons, List.getElem?_append_left (by omega)]
  have e2 : entry d.cons (p + a.nodes.length) j = entry b.cons p j := by
    unfold entry
    rw [h.cons, List.getElem?_append_right (by omega), hsz, Nat.add_sub_cancel]
  unfold Free
  exact ⟨fun hp => by rw [e1 hp], by rw [e2]⟩

theorem beside_stable_of (h : Beside a b d) (za : a.cons.length = a.nodes.length) (zb : b.cons.length = b.nodes.length)
    (iA : ∀ m ∈ msa, ∀ p ∈ m.nodes, p < a.nodes.length) (iB : ∀ m ∈ msb, ∀ p ∈ m.nodes, p < b.nodes.length) :
    Stable d.cons nd (msa ++ msb.map (renameMember (· + a.nodes.length))) ↔ Stable a.cons nd msa ∧ Stable b.cons nd msb := by
  have hl : d.cons.length = a.nodes.length + b.nodes.length := by rw [h.cons, List.length_append, za, zb]
  constructor
  · intro hst
    constructor
    · intro u hu h0 p j hp hj
      rw [za] at hp
      have := hst (fun q c => if q < a.nodes.length then u q c else 0) (fun q c hq hc hf => by
          by_cases hqa : q < a.nodes.length
          · simp only [hqa, if_true]
            exact hu q c (by rw [za]; exact hqa) hc fun hf' => hf (((beside_free_of h za q c).1 hqa).2 hf')
          · simp only [hqa, if_false])
        (fun q c hf => by
          by_cases hqa : q < a.nodes.length
          · rw [(beside_internal_of iA iB _ q c).1 hqa, internal_congr (v := u) iA (fun p hp j _ => if_pos hp)]
            exact h0 q c (((beside_free_of h za q c).1 hqa).1 hf)
          · have hqn : q < d.cons.length := free_lt hf
            obtain ⟨r, rfl⟩ := Nat.exists_eq_add_of_le' (Nat.le_of_not_lt hqa)
            rw [(beside_internal_of iA iB _ r c).2 (by omega), internal_congr (v := fun _ _ => 0) iB
              (fun p hp j _ => if_neg (by omega))]
            unfold internal Member.force
            simp) p j (by omega) hj
      simpa only [hp, if_true] using this
    · intro u hu h0 p j hp hj
      rw [zb] at hp
      have := hst (fun q c => if q < a.nodes.length then 0 else u (q - a.nodes.length) c) (fun q c hq hc hf => by
          by_cases hqa : q < a.nodes.length
          · simp only [hqa, if_true]
          · obtain ⟨r, rfl⟩ := Nat.exists_eq_add_of_le' (Nat.le_of_not_lt hqa)
            simp only [hqa, if_false, Nat.add_sub_cancel]
            exact hu r c (by rw [zb]; omega) hc fun hf' => hf ((beside_free_of h za r c).2.2 hf'))
        (fun q c hf => by
          by_cases hqa : q < a.nodes.length
          · rw [(beside_internal_of iA iB _ q c).1 hqa, internal_congr (v := fun _ _ => 0) iA (fun p hp j _ => if_pos hp)]
            unfold internal Member.force
            simp
          · have hqn : q < d.cons.length := free_lt hf
            obtain ⟨r, rfl⟩ := Nat.exists_eq_add_of_le' (Nat.le_of_not_lt hqa)
            rw [(beside_internal_of iA iB _ r c).2 (by omega), internal_congr (v := u) iB
              (fun p hp j _ => by rw [if_neg (by omega), Nat.add_sub_cancel])]
            exact h0 r c ((beside_free_of h za r c).2.1 hf)) (p + a.nodes.length) j (by omega) hj
      simpa using this
  · rintro ⟨sa, sb⟩ u hu h0 p j hp hj
    by_cases hpa : p < a.nodes.length
    · refine sa u (fun q c hq hc hf => ?_) (fun q c hf => ?_) p j (by rw [za]; exact hpa) hj
      · rw [za] at hq
        exact hu q c (by omega) hc fun hf' => hf (((beside_free_of h za q c).1 hq).1 hf')
      · have hq := free_lt hf
        rw [za] at hq
        rw [← (beside_internal_of iA iB u q c).1 hq]
        exact h0 q c (((beside_free_of h za q c).1 hq).2 hf)
    · obtain ⟨r, rfl⟩ := Nat.exists_eq_add_of_le' (Nat.le_of_not_lt hpa)
      refine sb (fun q c => u (q + a.nodes.length) c) (fun q c hq hc hf => ?_) (fun q c hf => ?_) r j (by rw [zb]; omega) hj
      · rw [zb] at hq
        exact hu _ c (by omega) hc fun hf' => hf ((beside_free_of h za q c).2.1 hf')
      · have hq := free_lt hf
        rw [zb] at hq
        rw [← (beside_internal_of iA iB u q c).2 hq]
        exact h0 _ c ((beside_free_of h za q c).2.2 hf)

/-- Displacements of both structures, one after the other. -/
def joinField (N : ℕ) (u v : ℕ → ℕ → K) : ℕ → ℕ → K := fun p j => if p < N then u p j else v (p - N) j

theorem beside_equilibrium_of (h : Beside a b d) (za : a.cons.length = a.nodes.length) (zb : b.cons.length = b.nodes.length)
    (iA : ∀ m ∈ msa, ∀ p ∈ m.nodes, p < a.nodes.length) (iB : ∀ m ∈ msb, ∀ p ∈ m.nodes, p < b.nodes.length) {u v : ℕ → ℕ → K}
    (ea : Equilibrium a.cons nd a.loads msa u) (eb : Equilibrium b.cons nd b.loads msb v) :
    Equilibrium d.cons nd d.loads (msa ++ msb.map (renameMember (· + a.nodes.length))) (joinField a.nodes.length u v) := by
  have hl : d.cons.length = a.nodes.length + b.nodes.length := by rw [h.cons, List.length_append, za, zb]
  have hsz := h.size
  have f1 : ∀ p < a.nodes.length, ∀ j, joinField a.nodes.length u v p j = u p j := fun p hp j => if_pos hp
  have f2 : ∀ p j, joinField a.nodes.length u v (p + a.nodes.length) j = v p j := fun p j => by
    unfold joinField
    rw [if_neg (by omega), Nat.add_sub_cancel]
  refine ⟨fun p j hp hj hf => ?_, fun p j hf => ?_⟩
  · by_cases hpa : p < a.nodes.length
    · rw [f1 p hpa]
      exact ea.1 p j (by rw [za]; exact hpa) hj fun hf' => hf (((beside_free_of h za p j).1 hpa).2 hf')
    · obtain ⟨q, rfl⟩ := Nat.exists_eq_add_of_le' (Nat.le_of_not_lt hpa)
      rw [f2]
      exact eb.1 q j (by rw [zb]; omega) hj fun hf' => hf ((beside_free_of h za q j).2.2 hf')
  · have hp := free_lt hf
    rw [show d.cons.length = d.nodes.length by omega]
    by_cases hpa : p < a.nodes.length
    · rw [(beside_internal_of iA iB _ p j).1 hpa, internal_congr (v := u) iA (fun p hp j _ => f1 p hp j)]
      refine beside_loadA h hpa ?_
      rw [← za]
      exact ea.2 p j (((beside_free_of h za p j).1 hpa).1 hf)
    · obtain ⟨q, rfl⟩ := Nat.exists_eq_add_of_le' (Nat.le_of_not_lt hpa)
      rw [(beside_internal_of iA iB _ q j).2 (by omega), internal_congr (v := v) iB (fun p _ j _ => f2 p j)]
      refine beside_loadB h ?_
      rw [← zb]
      exact eb.2 q j ((beside_free_of h za q j).2.1 hf)

theorem beside_codes_of (h : Beside a b d) (ha : ValidCons a.cons nd) (hb : ValidCons b.cons nd) : ValidCons d.cons nd := by
  intro i j x hj hx
  rw [h.cons] at hx
  obtain ⟨row, h1, h2⟩ := entry_some.1 hx
  rcases Nat.lt_or_ge i a.cons.length with hi | hi
  · rw [List.getElem?_append_left hi] at h1
    exact ha i j x hj (entry_some.2 ⟨row, h1, h2⟩)
  · rw [List.getElem?_append_right hi] at h1
    exact hb _ j x hj (entry_some.2 ⟨row, h1, h2⟩)

theorem beside_rows_of {fn : ℤ → Uel K → Prop} (h : Beside a b d) (hb : List.Forall₂ (IsMember fn b.mats b.nodes) b.elements msb)
    {el : List ℤ} (hel : el ∈ d.elements) :
    ∃ el' ∈ a.elements ++ b.elements, el[1]? = el'[1]? ∧ (el.drop 3).length = (el'.drop 3).length := by
  rw [h.elements] at hel
  rcases List.mem_append.1 hel with hel | hel
  · exact ⟨el, List.mem_append_left _ hel, rfl, rfl⟩
  · obtain ⟨el', hel', rfl⟩ := List.mem_map.1 hel
    obtain ⟨i, hi, rfl⟩ := List.mem_iff_getElem.1 hel'
    obtain ⟨ty', mi, params, rows, f, kl, ml, a1, a2, _⟩ := hb.get (i := i) hi (by rw [← hb.length_eq]; exact hi)
    simp only [List.get_eq_getElem] at a2
    obtain ⟨e1, e2, e3⟩ := laterRow_spec a.mats.length a.nodes.length a2
    exact ⟨_, List.mem_append_right _ hel', e1, by rw [e3, List.length_map]⟩

theorem beside_loads_of (h : Beside a b d) {k : ℕ} (hla : ∀ L ∈ a.loads, k ≤ L.length) (hlb : ∀ L ∈ b.loads, k ≤ L.length) :
    (∀ L ∈ a.loads, k ≤ L.length ∧ ∃ p, Names a.nodes.length L p) ∧ (∀ L ∈ b.loads, k ≤ L.length ∧ ∃ p, Names b.nodes.length L p) ∧
      ∀ L ∈ d.loads, k ≤ L.length ∧ ∃ p, Names d.nodes.length L p := by
  have hsz := h.size
  refine ⟨fun L hL => ?_, fun L hL => ?_, fun L hL => ?_⟩
  · obtain ⟨p, hp, e⟩ := h.loadsA L hL
    exact ⟨hla L hL, p, (names_nat hp e).2 rfl⟩
  · obtain ⟨p, hp, e⟩ := h.loadsB L hL
    exact ⟨hlb L hL, p, (names_nat hp e).2 rfl⟩
  · rw [h.loads] at hL
    rcases List.mem_append.1 hL with hL | hL
    · obtain ⟨p, hp, e⟩ := h.loadsA L hL
      exact ⟨hla L hL, p, (names_nat (by omega) e).2 rfl⟩
    · obtain ⟨L', hL', rfl⟩ := List.mem_map.1 hL
      obtain ⟨p, hp, e⟩ := h.loadsB L' hL'
      refine ⟨?_, p + a.nodes.length, (names_nat (by omega) (laterLoad_node e).1).2 rfl⟩
      have := hlb L' hL'
      rcases L' with _ | ⟨x, r⟩
      · simp at e
      · simpa [laterLoad] using this

theorem Spec.Beside.frame (h : Beside a b d) (ha : Frame a.cons a.nodes a.elements) (hb : Frame b.cons b.nodes b.elements)
    (hmb : List.Forall₂ (IsMember (Routine sq) b.mats b.nodes) b.elements msb) : Frame d.cons d.nodes d.elements where
  codes := beside_codes_of h ha.codes hb.codes
  width := by
    intro r hr
    rw [h.cons] at hr
    exact (List.mem_append.1 hr).elim (ha.width r) (hb.width r)
  size := by rw [h.cons, List.length_append, h.size, ha.size, hb.size]
  beams := by
    intro el hel
    obtain ⟨el', hel', e1, e2⟩ := beside_rows_of h hmb hel
    rw [e1, e2]
    exact (List.mem_append.1 hel').elim (ha.beams el') (hb.beams el')

theorem Spec.Beside.user {gn : ℤ → Uel K → Prop} (h : Beside a b d) (ha : UserModel nd n a.cons a.nodes a.elements)
    (hb : UserModel nd n b.cons b.nodes b.elements)
    (hmb : List.Forall₂ (IsMember gn b.mats b.nodes) b.elements msb) : UserModel nd n d.cons d.nodes d.elements where
  codes := beside_codes_of h ha.codes hb.codes
  width := by
    intro r hr
    rw [h.cons] at hr
    exact (List.mem_append.1 hr).elim (ha.width r) (hb.width r)
  size := by rw [h.cons, List.length_append, h.size, ha.size, hb.size]
  typed := by
    intro el hel
    obtain ⟨el', hel', e1, e2⟩ := beside_rows_of h hmb hel
    rw [e2]
    exact (List.mem_append.1 hel').elim (ha.typed el') (hb.typed el')

theorem Spec.Beside.counts {gn : ℤ → Uel K → Prop} {k : ℕ} (h : Beside a b d) (ha : Counts count k a.elements) (hb : Counts count k b.elements)
    (hmb : List.Forall₂ (IsMember gn b.mats b.nodes) b.elements msb) : Counts count k d.elements := by
  intro el hel
  obtain ⟨el', hel', e1, e2⟩ := beside_rows_of h hmb hel
  rw [e1]
  exact (List.mem_append.1 hel').elim (ha el') (hb el')

/-- C173.  Supports hold two separate frames exactly when they hold each of them. -/
theorem C173_frame_stable_iff (h : Beside a b d) (ha : Frame a.cons a.nodes a.elements) (hb : Frame b.cons b.nodes b.elements)
    (hma : List.Forall₂ (IsMember (Routine sq) a.mats a.nodes) a.elements msa)
    (hmb : List.Forall₂ (IsMember (Routine sq) b.mats b.nodes) b.elements msb)
    (hm : List.Forall₂ (IsMember (Routine sq) d.mats d.nodes) d.elements ms) :
    Stable d.cons 3 ms ↔ Stable a.cons 3 msa ∧ Stable b.cons 3 msb := by
  obtain rfl := frame_members_unique (members_beside_of h hma hmb) hm
  exact beside_stable_of h ha.size hb.size (members_inn hma) (members_inn hmb)

/-- C173.  Two separate stable frames in one model are solved as if each were alone. -/
theorem C173_frame (h : Beside a b d) (ha : Frame a.cons a.nodes a.elements) (hb : Frame b.cons b.nodes b.elements)
    (hma : List.Forall₂ (IsMember (Routine sq) a.mats a.nodes) a.elements msa)
    (hmb : List.Forall₂ (IsMember (Routine sq) b.mats b.nodes) b.elements msb) (sa : Stable a.cons 3 msa) (sb : Stable b.cons 3 msb)
    (hsp : SolverOk sp) (hde : SolverOk de) (hla : ∀ L ∈ a.loads, 4 ≤ L.length) (hlb : ∀ L ∈ b.loads, 4 ≤ L.length) :
    ∃ full fa fb, frameRun sq sp de sparse d.cons d.elements d.mats d.nodes d.loads = .ok full ∧
      frameRun sq sp de sparse a.cons a.elements a.mats a.nodes a.loads = .ok fa ∧
      frameRun sq sp de sparse b.cons b.elements b.mats b.nodes b.loads = .ok fb ∧
      (∀ p j, p < a.nodes.length → j < 3 → entry full p j = entry fa p j ∧ (entry fa p j).isSome) ∧
      ∀ p j, p < b.nodes.length → j < 3 → entry full (p + a.nodes.length) j = entry fb p j ∧ (entry fb p j).isSome := by
  have hd := h.frame ha hb hmb
  have hm := members_beside_of h hma hmb
  have iA := members_inn hma
  have iB := members_inn hmb
  have hst := (beside_stable_of (nd := 3) h ha.size hb.size iA iB).2 ⟨sa, sb⟩
  have hsz := h.size
  obtain ⟨l1, l2, l3⟩ := beside_loads_of h hla hlb
  obtain ⟨fa, ra, ea⟩ := C117_solved ha hma sa hsp hde sparse l1
  obtain ⟨fb, rb, eb⟩ := C117_solved hb hmb sb hsp hde sparse l2
  obtain ⟨full, r, -⟩ := C117_solved hd hm hst hsp hde sparse l3
  have u := C117_unique hd hm hst hsp hde r (beside_equilibrium_of h ha.size hb.size iA iB ea eb)
  refine ⟨full, fa, fb, r, ra, rb, fun p j hp hj => ?_, fun p j hp hj => ?_⟩
  · rw [u p j (by omega) hj, C117_unique ha hma sa hsp hde ra ea p j hp hj, joinField, if_pos hp]
    exact ⟨rfl, rfl⟩
  · rw [u _ j (by omega) hj, C117_unique hb hmb sb hsp hde rb eb p j hp hj, joinField, if_neg (by omega), Nat.add_sub_cancel]
    exact ⟨rfl, rfl⟩

/-- C173.  Supports hold two separate models of the user's own elements exactly when they hold each of them. -/
theorem C173_user_stable_iff (h : Beside a b d) (ha : UserModel nd n a.cons a.nodes a.elements) (hb : UserModel nd n b.cons b.nodes b.elements)
    (hma : List.Forall₂ (Describes f a.mats a.nodes) a.elements msa) (hmb : List.Forall₂ (Describes f b.mats b.nodes) b.elements msb)
    (hm : List.Forall₂ (Describes f d.mats d.nodes) d.elements ms) :
    Stable d.cons nd ms ↔ Stable a.cons nd msa ∧ Stable b.cons nd msb := by
  obtain rfl := describes_all_unique (members_beside_of h hma hmb) hm
  exact beside_stable_of h ha.size hb.size (members_inn hma) (members_inn hmb)

/-- C173.  Two separate stable models of the user's own elements are solved as if each were alone. -/
theorem C173_user (h : Beside a b d) (hf : ElementOf nd n f) (ha : UserModel nd n a.cons a.nodes a.elements)
    (hb : UserModel nd n b.cons b.nodes b.elements) (hca : Counts count (n * nd) a.elements) (hcb : Counts count (n * nd) b.elements)
    (h0 : 0 < n * nd) (hm : n * nd ≤ m) (hma : List.Forall₂ (Describes f a.mats a.nodes) a.elements msa)
    (hmb : List.Forall₂ (Describes f b.mats b.nodes) b.elements msb) (sa : Stable a.cons nd msa) (sb : Stable b.cons nd msb)
    (hsp : SolverOk sp) (hde : SolverOk de) (hla : ∀ L ∈ a.loads, nd + 1 ≤ L.length) (hlb : ∀ L ∈ b.loads, nd + 1 ≤ L.length) :
    ∃ full fa fb, userRun tab f nd m count sp de sparse d.cons d.elements d.mats d.nodes d.loads = .ok full ∧
      userRun tab f nd m count sp de sparse a.cons a.elements a.mats a.nodes a.loads = .ok fa ∧
      userRun tab f nd m count sp de sparse b.cons b.elements b.mats b.nodes b.loads = .ok fb ∧
      (∀ p j, p < a.nodes.length → j < nd → entry full p j = entry fa p j ∧ (entry fa p j).isSome) ∧
      ∀ p j, p < b.nodes.length → j < nd → entry full (p + a.nodes.length) j = entry fb p j ∧ (entry fb p j).isSome := by
  have hd := h.user ha hb hmb
  have hcd := h.counts hca hcb hmb
  have hmd : List.Forall₂ (Describes f d.mats d.nodes) d.elements _ := members_beside_of h hma hmb
  have iA := members_inn hma
  have iB := members_inn hmb
  have hst := (beside_stable_of (nd := nd) h ha.size hb.size iA iB).2 ⟨sa, sb⟩
  have hsz := h.size
  obtain ⟨l1, l2, l3⟩ := beside_loads_of h hla hlb
  obtain ⟨fa, ra, ea⟩ := C135_solved (tab := tab) hf ha hca h0 hm hma sa hsp hde sparse l1
  obtain ⟨fb, rb, eb⟩ := C135_solved (tab := tab) hf hb hcb h0 hm hmb sb hsp hde sparse l2
  obtain ⟨full, r, -⟩ := C135_solved (tab := tab) hf hd hcd h0 hm hmd hst hsp hde sparse l3
  have u := C135_unique hf hd hcd h0 hm hmd hst hsp hde r (beside_equilibrium_of h ha.size hb.size iA iB ea eb)
  refine ⟨full, fa, fb, r, ra, rb, fun p j hp hj => ?_, fun p j hp hj => ?_⟩
  · rw [u p j (by omega) hj, C135_unique hf ha hca h0 hm hma sa hsp hde ra ea p j hp hj, joinField, if_pos hp]
    exact ⟨rfl, rfl⟩
  · rw [u _ j (by omega) hj, C135_unique hf hb hcb h0 hm hmb sb hsp hde rb eb p j hp hj, joinField, if_neg (by omega), Nat.add_sub_cancel]
    exact ⟨rfl, rfl⟩

/-! ## The matrices -/

/-- Equations of both structures, in terms of those of the joint model. -/
structure Spec.JoinedEq (N : ℕ) (cons cons' : Table K) (nd : ℕ) (bc bc' bd : List (List ℤ)) {na nb neq : ℕ} (e : Fin na ⊕ Fin nb ≃ Fin neq) : Prop where
  first : ∀ p j (i : Fin na), Free cons nd p j → entry bc p j = some ((i : ℕ) : ℤ) → entry bd p j = some ((e (.inl i) : ℕ) : ℤ)
  second : ∀ p j (i : Fin nb), Free cons' nd p j → entry bc' p j = some ((i : ℕ) : ℤ) → entry bd (p + N) j = some ((e (.inr i) : ℕ) : ℤ)

theorem beside_equations (h : Beside a b d) (za : a.cons.length = a.nodes.length) {na nb neq : ℕ} {bc bc' bd : List (List ℤ)}
    (ha : eqcounter a.cons nd = .ok (na, bc)) (hb : eqcounter b.cons nd = .ok (nb, bc')) (hd : eqcounter d.cons nd = .ok (neq, bd)) :
    ∃ e : Fin na ⊕ Fin nb ≃ Fin neq, JoinedEq a.nodes.length a.cons b.cons nd bc bc' bd e := by
  have hlt : ∀ {p j}, Free a.cons nd p j → p < a.nodes.length := fun hf => by have := free_lt hf; omega
  have hexA : ∀ i : Fin na, ∃ i' : Fin neq, ∀ p j, Free a.cons nd p j → entry bc p j = some ((i : ℕ) : ℤ) →
      entry bd p j = some ((i' : ℕ) : ℤ) := fun i => by
    obtain ⟨p, j, hf, he, hu⟩ := (C01_numbering_bijective ha).2 i i.2
    obtain ⟨e1, e2⟩ := free_entry hd (((beside_free_of h za p j).1 (hlt hf)).2 hf)
    refine ⟨⟨_, e2⟩, fun q c hq hk => ?_⟩
    obtain ⟨rfl, rfl⟩ := hu q c hq hk
    exact e1
  have hexB : ∀ i : Fin nb, ∃ i' : Fin neq, ∀ p j, Free b.cons nd p j → entry bc' p j = some ((i : ℕ) : ℤ) →
      entry bd (p + a.nodes.length) j = some ((i' : ℕ) : ℤ) := fun i => by
    obtain ⟨p, j, hf, he, hu⟩ := (C01_numbering_bijective hb).2 i i.2
    obtain ⟨e1, e2⟩ := free_entry hd ((beside_free_of h za p j).2.2 hf)
    refine ⟨⟨_, e2⟩, fun q c hq hk => ?_⟩
    obtain ⟨rfl, rfl⟩ := hu q c hq hk
    exact e1
  choose t ht using hexA
  choose s hs using hexB
  have hbij : Function.Bijective (Sum.elim t s) := by
    constructor
    · rintro (i | i) (k | k) e
      · obtain ⟨p, j, hf, he, -⟩ := (C01_numbering_bijective ha).2 i i.2
        obtain ⟨q, c, hq, hk, -⟩ := (C01_numbering_bijective ha).2 k k.2
        have x := ht i p j hf he
        have y := ht k q c hq hk
        simp only [Sum.elim_inl] at e
        rw [← e] at y
        obtain ⟨_, _, _, _, hu⟩ := (C01_numbering_bijective hd).2 (t i) (t i).2
        have x' := hu _ _ (((beside_free_of h za p j).1 (hlt hf)).2 hf) x
        have y' := hu _ _ (((beside_free_of h za q c).1 (hlt hq)).2 hq) y
        have epq : p = q := x'.1.trans y'.1.symm
        have ejc : j = c := x'.2.trans y'.2.symm
        subst epq ejc
        rw [he, Option.some.injEq] at hk
        exact congrArg _ (Fin.ext (by exact_mod_cast hk))
      · obtain ⟨p, j, hf, he, -⟩ := (C01_numbering_bijective ha).2 i i.2
        obtain ⟨q, c, hq, hk, -⟩ := (C01_numbering_bijective hb).2 k k.2
        have x := ht i p j hf he
        have y := hs k q c hq hk
        simp only [Sum.elim_inl, Sum.elim_inr] at e
        rw [← e] at y
        obtain ⟨_, _, _, _, hu⟩ := (C01_numbering_bijective hd).2 (t i) (t i).2
        have x' := hu _ _ (((beside_free_of h za p j).1 (hlt hf)).2 hf) x
        have y' := hu _ _ ((beside_free_of h za q c).2.2 hq) y
        have := hlt hf
        omega
      · obtain ⟨p, j, hf, he, -⟩ := (C01_numbering_bijective hb).2 i i.2
        obtain ⟨q, c, hq, hk, -⟩ := (C01_numbering_bijective ha).2 k k.2
        have x := hs i p j hf he
        have y := ht k q c hq hk
        simp only [Sum.elim_inl, Sum.elim_inr] at e
        rw [← e] at y
        obtain ⟨_, _, _, _, hu⟩ := (C01_numbering_bijective hd).2 (s i) (s i).2
        have x' := hu _ _ ((beside_free_of h za p j).2.2 hf) x
        have y' := hu _ _ (((beside_free_of h za q c).1 (hlt hq)).2 hq) y
        have := hlt hq
        omega
      · obtain ⟨p, j, hf, he, -⟩ := (C01_numbering_bijective hb).2 i i.2
        obtain ⟨q, c, hq, hk, -⟩ := (C01_numbering_bijective hb).2 k k.2
        have x := hs i p j hf he
        have y := hs k q c hq hk
        simp only [Sum.elim_inr] at e
        rw [← e] at y
        obtain ⟨_, _, _, _, hu⟩ := (C01_numbering_bijective hd).2 (s i) (s i).2
        have x' := hu _ _ ((beside_free_of h za p j).2.2 hf) x
        have y' := hu _ _ ((beside_free_of h za q c).2.2 hq) y
        have epq : p = q := by omega
        have ejc : j = c := x'.2.trans y'.2.symm
        subst epq ejc
        rw [he, Option.some.injEq] at hk
        exact congrArg _ (Fin.ext (by exact_mod_cast hk))
    · intro i'
      obtain ⟨q, j, hf, he, -⟩ := (C01_numbering_bijective hd).2 i' i'.2
      by_cases hq : q < a.nodes.length
      · have hf0 := ((beside_free_of h za q j).1 hq).1 hf
        obtain ⟨e1, e2⟩ := free_entry ha hf0
        refine ⟨.inl ⟨_, e2⟩, ?_⟩
        have := ht ⟨_, e2⟩ q j hf0 e1
        rw [he, Option.some.injEq] at this
        exact Fin.ext (by exact_mod_cast this.symm)
      · obtain ⟨r, rfl⟩ := Nat.exists_eq_add_of_le' (Nat.le_of_not_lt hq)
        have hf0 := (beside_free_of h za r j).2.1 hf
        obtain ⟨e1, e2⟩ := free_entry hb hf0
        refine ⟨.inr ⟨_, e2⟩, ?_⟩
        have := hs ⟨_, e2⟩ r j hf0 e1
        rw [he, Option.some.injEq] at this
        exact Fin.ext (by exact_mod_cast this.symm)
  exact ⟨Equiv.ofBijective _ hbij, fun p j i => ht i p j, fun p j i => hs i p j⟩

theorem beside_matrix {fn : ℤ → Uel K → Prop} (hfn : ∀ ty f f', fn ty f → fn ty f' → f = f') (h : Beside a b d)
    (za : a.cons.length = a.nodes.length) (zb : b.cons.length = b.nodes.length) {na nb neq : ℕ} {bc bc' bd : List (List ℤ)}
    {A : Matrix (Fin na) (Fin na) K} {B : Matrix (Fin nb) (Fin nb) K} {C : Matrix (Fin neq) (Fin neq) K}
    (s : Setup fn a.cons a.elements a.mats a.nodes nd na bc A msa) (s' : Setup fn b.cons b.elements b.mats b.nodes nd nb bc' B msb)
    (t : Setup fn d.cons d.elements d.mats d.nodes nd neq bd C ms) {e : Fin na ⊕ Fin nb ≃ Fin neq}
    (he : JoinedEq a.nodes.length a.cons b.cons nd bc bc' bd e) : C.submatrix e e = Matrix.fromBlocks A 0 0 B := by
  obtain rfl := members_unique_any hfn (members_beside_of h s.mem s'.mem) t.mem
  have hl : d.cons.length = a.nodes.length + b.nodes.length := by rw [h.cons, List.length_append, za, zb]
  have iA := members_inn s.mem
  have iB := members_inn s'.mem
  have hlt : ∀ {p j}, Free a.cons nd p j → p < a.nodes.length := fun hf => by have := free_lt hf; omega
  have hlt' : ∀ {p j}, Free b.cons nd p j → p < b.nodes.length := fun hf => by have := free_lt hf; omega
  have key : ∀ x : Fin neq → K, (∀ i, C.mulVec x (e (.inl i)) = A.mulVec (fun k => x (e (.inl k))) i) ∧
      ∀ i, C.mulVec x (e (.inr i)) = B.mulVec (fun k => x (e (.inr k))) i := by
    intro x
    obtain ⟨U, hU⟩ := exists_completes (cons := d.cons) bd nd x
    have hV : Completes a.cons bc nd na (fun k => x (e (.inl k))) U := by
      intro p hp j hj
      have hq : p < d.cons.length := by omega
      constructor
      · intro i hi
        obtain ⟨f1, f2⟩ := free_of_dofEq s.eq s.valid hj hi
        exact (hU p hq j hj).1 (e (.inl i)) ⟨_, he.first p j i f1 f2, by omega, (e (.inl i)).2, .inl rfl⟩
      · intro hno
        refine (hU p hq j hj).2 fun i' hi' => ?_
        obtain ⟨f1, -⟩ := free_of_dofEq t.eq t.valid hj hi'
        obtain ⟨e1, e2⟩ := free_entry s.eq (((beside_free_of h za p j).1 (by omega)).1 f1)
        exact hno ⟨_, e2⟩ ⟨_, e1, by omega, e2, .inl rfl⟩
    have hW : Completes b.cons bc' nd nb (fun k => x (e (.inr k))) (fun p j => U (p + a.nodes.length) j) := by
      intro p hp j hj
      have hq : p + a.nodes.length < d.cons.length := by omega
      constructor
      · intro i hi
        obtain ⟨f1, f2⟩ := free_of_dofEq s'.eq s'.valid hj hi
        exact (hU _ hq j hj).1 (e (.inr i)) ⟨_, he.second p j i f1 f2, by omega, (e (.inr i)).2, .inl rfl⟩
      · intro hno
        refine (hU _ hq j hj).2 fun i' hi' => ?_
        obtain ⟨f1, -⟩ := free_of_dofEq t.eq t.valid hj hi'
        obtain ⟨e1, e2⟩ := free_entry s'.eq ((beside_free_of h za p j).2.1 f1)
        exact hno ⟨_, e2⟩ ⟨_, e1, by omega, e2, .inl rfl⟩
    constructor
    · intro i
      obtain ⟨p, j, hf, hi, -⟩ := (C01_numbering_bijective s.eq).2 i i.2
      rw [s.mul _ _ hV p j i hf ⟨_, hi, by omega, i.2, .inl rfl⟩,
        t.mul _ _ hU p j (e (.inl i)) (((beside_free_of h za p j).1 (hlt hf)).2 hf) ⟨_, he.first p j i hf hi, by omega, (e (.inl i)).2, .inl rfl⟩,
        (beside_internal_of iA iB U p j).1 (hlt hf)]
    · intro i
      obtain ⟨p, j, hf, hi, -⟩ := (C01_numbering_bijective s'.eq).2 i i.2
      rw [s'.mul _ _ hW p j i hf ⟨_, hi, by omega, i.2, .inl rfl⟩,
        t.mul _ _ hU _ j (e (.inr i)) ((beside_free_of h za p j).2.2 hf) ⟨_, he.second p j i hf hi, by omega, (e (.inr i)).2, .inl rfl⟩,
        (beside_internal_of iA iB U p j).2 (hlt' hf)]
  have col : ∀ i k, C i k = C.mulVec (Pi.single k 1) i := fun i k => by rw [Matrix.mulVec_single_one]; rfl
  have single : ∀ {α : Type} [DecidableEq α] [Fintype α] (M : Matrix α α K) (i k : α), M.mulVec (fun l => if l = k then 1 else 0) i = M i k := by
    intro α _ _ M i k
    simp [Matrix.mulVec, dotProduct]
  have zero : ∀ {α : Type} [DecidableEq α] [Fintype α] (M : Matrix α α K) (i : α), M.mulVec (fun _ => 0) i = 0 := by
    intro α _ _ M i
    simp [Matrix.mulVec, dotProduct]
  ext (i | i) (k | k)
  · rw [Matrix.submatrix_apply, col, (key _).1 i, Matrix.fromBlocks_apply₁₁, ← single A i k]
    congr 1; funext l
    simp [Pi.single_apply]
  · rw [Matrix.submatrix_apply, col, (key _).1 i, Matrix.fromBlocks_apply₁₂, Matrix.zero_apply, ← zero A i]
    congr 1; funext l
    simp
  · rw [Matrix.submatrix_apply, col, (key _).2 i, Matrix.fromBlocks_apply₂₁, Matrix.zero_apply, ← zero B i]
    congr 1; funext l
    simp
  · rw [Matrix.submatrix_apply, col, (key _).2 i, Matrix.fromBlocks_apply₂₂, ← single B i k]
    congr 1; funext l
    simp [Pi.single_apply]

/-- Stiffness and mass of the joint model are those of both structures, without coupling. -/
structure Spec.JoinedPair (N : ℕ) (cons cons' : Table K) (nd : ℕ) (bc bc' bd : List (List ℤ)) {na nb neq : ℕ} (Ka Ma : Matrix (Fin na) (Fin na) K)
    (Kb Mb : Matrix (Fin nb) (Fin nb) K) (Kd Md : Matrix (Fin neq) (Fin neq) K) (e : Fin na ⊕ Fin nb ≃ Fin neq) : Prop where
  place : JoinedEq N cons cons' nd bc bc' bd e
  stiffness : Kd.submatrix e e = Matrix.fromBlocks Ka 0 0 Kb
  mass : Md.submatrix e e = Matrix.fromBlocks Ma 0 0 Mb

section
variable {na nb neq : ℕ} {oa ob od bc bc' bd : List (List ℤ)} {Ka Ma : Matrix (Fin na) (Fin na) K} {Kb Mb : Matrix (Fin nb) (Fin nb) K}
  {Kd Md : Matrix (Fin neq) (Fin neq) K} {sparse' sparse'' : Bool}

/-- C173.  Stiffness and mass of two separate plane structures in one model. -/
theorem C173_plane_matrices (h : Beside a b d) (ha : WellFormed a) (hb : WellFormed b) (h1 : dme a.cons a.elements = .ok (oa, bc, na))
    (h2 : assembler (Uel.eleFun sq) a.elements a.mats a.nodes na oa = .ok (Ka, Ma)) (h1' : dme b.cons b.elements = .ok (ob, bc', nb))
    (h2' : assembler (Uel.eleFun sq) b.elements b.mats b.nodes nb ob = .ok (Kb, Mb)) (h3 : dme d.cons d.elements = .ok (od, bd, neq))
    (h4 : assembler (Uel.eleFun sq) d.elements d.mats d.nodes neq od = .ok (Kd, Md)) :
    ∃ e, JoinedPair a.nodes.length a.cons b.cons 2 bc bc' bd Ka Ma Kb Mb Kd Md e := by
  have hd := h.wellFormed ha hb
  obtain ⟨_, s⟩ := auto_setup h1 h2 ha.codes ha.width ha.size
  obtain ⟨_, t⟩ := mass_setup h1 h2 ha
  obtain ⟨_, s'⟩ := auto_setup h1' h2' hb.codes hb.width hb.size
  obtain ⟨_, t'⟩ := mass_setup h1' h2' hb
  obtain ⟨_, s''⟩ := auto_setup h3 h4 hd.codes hd.width hd.size
  obtain ⟨_, t''⟩ := mass_setup h3 h4 hd
  obtain ⟨e, he⟩ := beside_equations h ha.size s.eq s'.eq s''.eq
  exact ⟨e, he, beside_matrix (fun _ _ _ a b => Except.ok.inj (a.symm.trans b)) h ha.size hb.size s s' s'' he,
    beside_matrix massRoutine_unique_of h ha.size hb.size t t' t'' he⟩

/-- C173.  Stiffness and mass of two separate frames in one model. -/
theorem C173_frame_matrices (h : Beside a b d) (ha : Frame a.cons a.nodes a.elements) (hb : Frame b.cons b.nodes b.elements)
    (h1 : dme a.cons a.elements 3 = .ok (oa, bc, na)) (h2 : assembler (Uel.eleFun sq) a.elements a.mats a.nodes na oa sparse = .ok (Ka, Ma))
    (h1' : dme b.cons b.elements 3 = .ok (ob, bc', nb)) (h2' : assembler (Uel.eleFun sq) b.elements b.mats b.nodes nb ob sparse' = .ok (Kb, Mb))
    (h3 : dme d.cons d.elements 3 = .ok (od, bd, neq))
    (h4 : assembler (Uel.eleFun sq) d.elements d.mats d.nodes neq od sparse'' = .ok (Kd, Md)) :
    ∃ e, JoinedPair a.nodes.length a.cons b.cons 3 bc bc' bd Ka Ma Kb Mb Kd Md e := by
  obtain ⟨_, s⟩ := frame_setup ha h1 h2
  obtain ⟨_, t⟩ := frame_mass_setup ha h1 h2
  obtain ⟨_, s'⟩ := frame_setup hb h1' h2'
  obtain ⟨_, t'⟩ := frame_mass_setup hb h1' h2'
  have hd := h.frame ha hb s'.mem
  obtain ⟨_, s''⟩ := frame_setup hd h3 h4
  obtain ⟨_, t''⟩ := frame_mass_setup hd h3 h4
  obtain ⟨e, he⟩ := beside_equations h ha.size s.eq s'.eq s''.eq
  exact ⟨e, he, beside_matrix (fun _ _ _ a b => Except.ok.inj (a.symm.trans b)) h ha.size hb.size s s' s'' he,
    beside_matrix massRoutine_unique_of h ha.size hb.size t t' t'' he⟩

/-- C173.  Stiffness and mass of two separate models of the user's own elements. -/
theorem C173_user_matrices (h : Beside a b d) (hf : ElementOf nd n f) (ha : UserModel nd n a.cons a.nodes a.elements)
    (hb : UserModel nd n b.cons b.nodes b.elements) (hca : Counts count (n * nd) a.elements) (hcb : Counts count (n * nd) b.elements)
    (h0 : 0 < n * nd) (hm : n * nd ≤ m) (h1 : dme a.cons a.elements nd m (some count) = .ok (oa, bc, na))
    (h2 : assembler tab a.elements a.mats a.nodes na oa sparse (some f) = .ok (Ka, Ma))
    (h1' : dme b.cons b.elements nd m (some count) = .ok (ob, bc', nb))
    (h2' : assembler tab b.elements b.mats b.nodes nb ob sparse' (some f) = .ok (Kb, Mb))
    (h3 : dme d.cons d.elements nd m (some count) = .ok (od, bd, neq))
    (h4 : assembler tab d.elements d.mats d.nodes neq od sparse'' (some f) = .ok (Kd, Md)) :
    ∃ e, JoinedPair a.nodes.length a.cons b.cons nd bc bc' bd Ka Ma Kb Mb Kd Md e := by
  obtain ⟨_, s⟩ := user_setup hf ha hca h0 hm h1 h2
  obtain ⟨_, t⟩ := user_mass_setup hf ha hca h0 hm h1 h2
  obtain ⟨_, s'⟩ := user_setup hf hb hcb h0 hm h1' h2'
  obtain ⟨_, t'⟩ := user_mass_setup hf hb hcb h0 hm h1' h2'
  have hd := h.user ha hb s'.mem
  have hcd := h.counts hca hcb s'.mem
  obtain ⟨_, s''⟩ := user_setup hf hd hcd h0 hm h3 h4
  obtain ⟨_, t''⟩ := user_mass_setup hf hd hcd h0 hm h3 h4
  obtain ⟨e, he⟩ := beside_equations h ha.size s.eq s'.eq s''.eq
  exact ⟨e, he, beside_matrix (fun _ _ _ a b => a.trans b.symm) h ha.size hb.size s s' s'' he,
    beside_matrix (fun _ _ _ a b => a.trans b.symm) h ha.size hb.size t t' t'' he⟩

/-- C173.  The characteristic polynomial of the joint model is the product of those of both structures, so its squared frequencies are those of
both, with their multiplicities. -/
theorem C173_frequencies {N : ℕ} {cons cons' : Table K} {e} (h : JoinedPair N cons cons' nd bc bc' bd Ka Ma Kb Mb Kd Md e) (t : K) :
    (Kd - t • Md).det = (Ka - t • Ma).det * (Kb - t • Mb).det ∧
    ((∃ v, v ≠ 0 ∧ Kd.mulVec v = t • Md.mulVec v) ↔
      (∃ v, v ≠ 0 ∧ Ka.mulVec v = t • Ma.mulVec v) ∨ ∃ v, v ≠ 0 ∧ Kb.mulVec v = t • Mb.mulVec v) := by
  have hdet : (Kd - t • Md).det = (Ka - t • Ma).det * (Kb - t • Mb).det := by
    rw [← Matrix.det_submatrix_equiv_self e, ← Matrix.det_fromBlocks_zero₂₁ _ 0]
    congr 1
    have h1 := h.stiffness
    have h2 := h.mass
    ext (i | i) (k | k)
    · have a1 := congrFun (congrFun h1 (.inl i)) (.inl k)
      have a2 := congrFun (congrFun h2 (.inl i)) (.inl k)
      simp only [Matrix.submatrix_apply, Matrix.fromBlocks_apply₁₁] at a1 a2
      simp [a1, a2]
    · have a1 := congrFun (congrFun h1 (.inl i)) (.inr k)
      have a2 := congrFun (congrFun h2 (.inl i)) (.inr k)
      simp only [Matrix.submatrix_apply, Matrix.fromBlocks_apply₁₂] at a1 a2
      simp [a1, a2]
    · have a1 := congrFun (congrFun h1 (.inr i)) (.inl k)
      have a2 := congrFun (congrFun h2 (.inr i)) (.inl k)
      simp only [Matrix.submatrix_apply, Matrix.fromBlocks_apply₂₁] at a1 a2
      simp [a1, a2]
    · have a1 := congrFun (congrFun h1 (.inr i)) (.inr k)
      have a2 := congrFun (congrFun h2 (.inr i)) (.inr k)
      simp only [Matrix.submatrix_apply, Matrix.fromBlocks_apply₂₂] at a1 a2
      simp [a1, a2]
  have eig : ∀ {k : ℕ} (A B : Matrix (Fin k) (Fin k) K), (∃ v, v ≠ 0 ∧ A.mulVec v = t • B.mulVec v) ↔ (A - t • B).det = 0 := by
    intro k A B
    rw [← Matrix.exists_mulVec_eq_zero_iff]
    refine exists_congr fun v => and_congr_right fun _ => ?_
    rw [Matrix.sub_mulVec, Matrix.smul_mulVec, sub_eq_zero]
  exact ⟨hdet, by rw [eig, eig, eig, hdet, mul_eq_zero]⟩

/-- C173.  The modes of the joint model are those of the structures: at each squared frequency, displacements of the joint model form a mode
exactly when those of each structure satisfy its own equations. -/
theorem C173_mode_iff {N : ℕ} {cons cons' : Table K} {e} (h : JoinedPair N cons cons' nd bc bc' bd Ka Ma Kb Mb Kd Md e) (t : K)
    (v : Fin neq → K) : Kd.mulVec v = t • Md.mulVec v ↔
      Ka.mulVec (fun i => v (e (.inl i))) = t • Ma.mulVec (fun i => v (e (.inl i))) ∧
      Kb.mulVec (fun i => v (e (.inr i))) = t • Mb.mulVec (fun i => v (e (.inr i))) := by
  have part : ∀ {A : Matrix (Fin neq) (Fin neq) K} {X : Matrix (Fin na) (Fin na) K} {Y : Matrix (Fin nb) (Fin nb) K},
      A.submatrix e e = Matrix.fromBlocks X 0 0 Y → (∀ i, A.mulVec v (e (.inl i)) = X.mulVec (fun i => v (e (.inl i))) i) ∧
        ∀ i, A.mulVec v (e (.inr i)) = Y.mulVec (fun i => v (e (.inr i))) i := by
    intro A X Y hA
    have hr : ∀ i, A.mulVec v (e i) = (A.submatrix e e).mulVec (v ∘ e) i := fun i => by
      simp only [Matrix.mulVec, dotProduct, Matrix.submatrix_apply, Function.comp]
      exact (e.sum_comp fun k => A (e i) k * v k).symm
    constructor <;> intro i <;> rw [hr, hA] <;> simp [Matrix.mulVec, dotProduct]
  obtain ⟨p1, p2⟩ := part h.stiffness
  obtain ⟨q1, q2⟩ := part h.mass
  constructor
  · intro H
    refine ⟨funext fun i => ?_, funext fun i => ?_⟩
    · have := congrFun H (e (.inl i))
      rw [Pi.smul_apply, p1, q1] at this
      exact this
    · have := congrFun H (e (.inr i))
      rw [Pi.smul_apply, p2, q2] at this
      exact this
  · rintro ⟨H1, H2⟩
    funext k
    obtain ⟨i | i, rfl⟩ := e.surjective k
    · rw [Pi.smul_apply, p1, q1]
      exact congrFun H1 i
    · rw [Pi.smul_apply, p2, q2]
      exact congrFun H2 i

end

end

section demo

/-- The frame of the test, twice in one model. -/
noncomputable def twoFrames : Gui.Data ℝ where
  nodes := [[0, 0, 0], [1, 0, 6], [2, 4, 6], [3, 0, 0], [4, 0, 6], [5, 4, 6]]
  cons := [[-1, -1, -1], [0, 0, 0], [-1, -1, -1], [-1, -1, -1], [0, 0, 0], [-1, -1, -1]]
  elements := [[0, 8, 0, 0, 1], [1, 8, 0, 1, 2], [0, 8, 1, 3, 4], [1, 8, 1, 4, 5]]
  mats := [[200000000000, 133 / 1000000, 1 / 25], [200000000000, 133 / 1000000, 1 / 25]]
  loads := [[1, -12000, -24000, -6000], [4, -12000, -24000, -6000]]

theorem twoFrames_beside : Beside testFrameData testFrameData twoFrames where
  nodes := by simp [testFrameData, testFrame, twoFrames]
  cons := by simp [testFrameData, testFrame, twoFrames]
  mats := by simp [testFrameData, testFrame, twoFrames]
  elements := by simp [testFrameData, testFrame, twoFrames, laterRow]
  loads := by
    simp [testFrameData, testFrame, twoFrames, laterLoad]
    norm_num
  plain := by simp [testFrameData, testFrame]
  loadsA := fun L hL => ⟨1, by simp [testFrameData, testFrame], by simp [testFrameData, testFrame] at hL; simp [hL]⟩
  loadsB := fun L hL => ⟨1, by simp [testFrameData, testFrame], by simp [testFrameData, testFrame] at hL; simp [hL]⟩

/-- Case for C173: the joint of the second frame turns as it does alone. -/
example (sparse : Bool) : ∃ full, frameRun Real.sqrt cramerR cramerR sparse twoFrames.cons twoFrames.elements twoFrames.mats twoFrames.nodes
    twoFrames.loads = .ok full ∧ entry full 4 2 = some (-507505867191 / 3840264264216625) := by
  obtain ⟨ms, hk⟩ := testFrame_members
  obtain ⟨full, fa, fb, r, ra, rb, -, h2⟩ := C173_frame (a := testFrameData) (b := testFrameData) (sparse := sparse) twoFrames_beside testFrame_frame
    testFrame_frame hk hk (testFrame_stable hk) (testFrame_stable hk) cramerR_ok cramerR_ok (by simp [testFrameData, testFrame])
    (by simp [testFrameData, testFrame])
  obtain ⟨f0, h0, -, -, e⟩ := testFrame_solved sparse
  obtain rfl : fb = f0 := Except.ok.inj (rb.symm.trans h0)
  exact ⟨full, r, (h2 1 2 (by simp [testFrameData, testFrame]) (by omega)).1.trans e⟩

/-- Case for C173: the matrices of both frames, and their frequencies. -/
example : ∃ (na neq : ℕ) (A B : Matrix (Fin na) (Fin na) ℝ) (C D : Matrix (Fin neq) (Fin neq) ℝ),
    (∃ op bc, dme twoFrames.cons twoFrames.elements 3 = .ok (op, bc, neq) ∧
      assembler (Uel.eleFun Real.sqrt) twoFrames.elements twoFrames.mats twoFrames.nodes neq op true = .ok (C, D)) ∧
    ∀ t : ℝ, (C - t • D).det = (A - t • B).det ^ 2 := by
  obtain ⟨ms, hk⟩ := testFrame_members
  have hd := twoFrames_beside.frame testFrame_frame testFrame_frame hk
  obtain ⟨op, bc, na, A, B, h1, h2⟩ := C117_assembled testFrame_frame hk false
  obtain ⟨od, bd, neq, C, D, h3, h4⟩ := C117_assembled hd (members_beside_of twoFrames_beside hk hk) true
  obtain ⟨e, h⟩ := C173_frame_matrices (a := testFrameData) (b := testFrameData) twoFrames_beside testFrame_frame testFrame_frame h1 h2 h1 h2 h3 h4
  exact ⟨na, neq, A, B, C, D, ⟨od, bd, h3, h4⟩, fun t => by rw [(C173_frequencies h t).1, pow_two]⟩

/-- Case for C173: the matrices of the two trusses. -/
example : ∃ (na neq : ℕ) (oa bc od bd : List (List ℤ)) (A B : Matrix (Fin na) (Fin na) ℚ) (C D : Matrix (Fin neq) (Fin neq) ℚ) (e : Fin na ⊕ Fin na ≃ Fin neq),
    dme demoTruss.cons demoTruss.elements = .ok (oa, bc, na) ∧
    assembler (Uel.eleFun demoSq) demoTruss.elements demoTruss.mats demoTruss.nodes na oa = .ok (A, B) ∧
    dme twoTrusses.cons twoTrusses.elements = .ok (od, bd, neq) ∧
    assembler (Uel.eleFun demoSq) twoTrusses.elements twoTrusses.mats twoTrusses.nodes neq od = .ok (C, D) ∧
    C.submatrix e e = Matrix.fromBlocks A 0 0 A := by
  obtain ⟨_, h, -⟩ := demo_ok
  obtain ⟨_, h'⟩ : ∃ r, Gui.solidsAuto demoSq cramerSolver cramerSolver twoTrusses false = .ok r := isOk_exists (by decide +kernel)
  obtain ⟨oa, bc, na, A, B, _, _, _, _, _, h1, h2, -⟩ := auto_ok.1 h
  obtain ⟨od, bd, neq, C, D, _, _, _, _, _, h3, h4, -⟩ := auto_ok.1 h'
  obtain ⟨e, hp⟩ := C173_plane_matrices two_beside demo_wf demo_wf h1 h2 h1 h2 h3 h4
  exact ⟨na, neq, oa, bc, od, bd, A, B, C, D, e, h1, h2, h3, h4, hp.stiffness⟩

/-- The body of two tetrahedra, pulled at one corner. -/
def tetData : Gui.Data ℚ := ⟨tetNodes, tetCons, tetEls, tetMats, [[4, 0, 0, 1]]⟩

/-- The body twice in one model. -/
def twoBodies : Gui.Data ℚ where
  nodes := tetNodes ++ tetNodes
  cons := tetCons ++ tetCons
  elements := [[0, 9, 0, 0, 1, 2, 3], [1, 9, 0, 1, 2, 3, 4], [0, 9, 1, 5, 6, 7, 8], [1, 9, 1, 6, 7, 8, 9]]
  mats := tetMats ++ tetMats
  loads := [[4, 0, 0, 1], [9, 0, 0, 1]]

theorem twoBodies_beside : Beside tetData tetData twoBodies where
  nodes := rfl
  cons := rfl
  mats := rfl
  elements := rfl
  loads := by decide +kernel
  plain := by decide
  loadsA := by decide +kernel
  loadsB := by decide +kernel

/-- Case for C173: both bodies are solved as one is alone. -/
example (tab : ℤ → Py (Uel ℚ)) (sparse : Bool) : ∃ full f0,
    userRun tab Uel.elastTet4 3 12 (fun _ => .ok 12) cramerSolver cramerSolver sparse twoBodies.cons twoBodies.elements twoBodies.mats
      twoBodies.nodes twoBodies.loads = .ok full ∧
    userRun tab Uel.elastTet4 3 12 (fun _ => .ok 12) cramerSolver cramerSolver sparse tetCons tetEls tetMats tetNodes [[4, 0, 0, 1]] = .ok f0 ∧
    ∀ p j, p < 5 → j < 3 → entry full p j = entry f0 p j ∧ entry full (p + 5) j = entry f0 p j := by
  obtain ⟨ms, h, -, -, hst⟩ := tet_case
  obtain ⟨full, fa, fb, r, ra, rb, e1, e2⟩ := C173_user (a := tetData) (b := tetData) (tab := tab) (sparse := sparse) twoBodies_beside h.element h.model
    h.model h.counts h.counts h.some_dofs h.room h.members h.members hst hst cramerSolver_ok cramerSolver_ok (by decide) (by decide)
  obtain rfl : fb = fa := Except.ok.inj (rb.symm.trans ra)
  exact ⟨full, fb, r, rb, fun p j hp hj => ⟨(e1 p j hp hj).1, (e2 p j hp hj).1⟩⟩

end demo

end SolidsPy
