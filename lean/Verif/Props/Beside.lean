import Verif.Props.Success

/-! # C142: separate structures in one model -/

set_option linter.unusedSectionVars false

namespace SolidsPy
open Spec Assem

section
variable {K : Type} [Field K] [LinearOrder K] [IsStrictOrderedRing K] [FloorRing K]

/-- A row of an element table with `s` added to the number of the material and `t` to those of the nodes. -/
def Spec.laterRow (s t : ℕ) : List ℤ → List ℤ
  | num :: ty :: mat :: ns => num :: ty :: (mat + s) :: ns.map (· + (t : ℤ))
  | el => el

/-- A row of a load table with `t` added to the number of the node. -/
def Spec.laterLoad (t : ℕ) : List K → List K
  | p :: fs => (p + t) :: fs
  | [] => []

/-- The model `d` has the tables of `a`, followed by those of `b` with the numbers of nodes and materials shifted accordingly.  Only the
first column of the node table, which the program does not use, is left open.  No number counts from the end of a table or beyond it. -/
structure Spec.Beside (a b d : Gui.Data K) : Prop where
  nodes : d.nodes.map (List.drop 1) = (a.nodes ++ b.nodes).map (List.drop 1)
  cons : d.cons = a.cons ++ b.cons
  mats : d.mats = a.mats ++ b.mats
  elements : d.elements = a.elements ++ b.elements.map (laterRow a.mats.length a.nodes.length)
  loads : d.loads = a.loads ++ b.loads.map (laterLoad a.nodes.length)
  plain : ∀ el ∈ a.elements ++ b.elements, ∀ x ∈ el.drop 2, 0 ≤ x
  loadsA : ∀ L ∈ a.loads, ∃ p : ℕ, p < a.nodes.length ∧ L[0]? = some (p : K)
  loadsB : ∀ L ∈ b.loads, ∃ p : ℕ, p < b.nodes.length ∧ L[0]? = some (p : K)

variable {sq : K → K} {sp de : Sol.Solver K} {a b d : Gui.Data K} {msa msb ms : List (Member K)}

theorem Spec.Beside.size (h : Beside a b d) : d.nodes.length = a.nodes.length + b.nodes.length := by
  have := congrArg List.length h.nodes
  simpa using this

theorem resolves_shift {n n' t k : ℕ} {i : ℤ} (h : Resolves n i k) (h0 : 0 ≤ i) (hn : n + t ≤ n') : Resolves n' (i + t) (k + t) := by
  obtain ⟨h1, h2⟩ := h
  refine ⟨by omega, ?_⟩
  rcases h2 with h2 | h2
  · left; push_cast; omega
  · exfalso; omega

theorem isMember_into {fn : ℤ → Uel K → Prop} {mats nodes mats' nodes' : Table K} {s t : ℕ} {el el' : List ℤ} {m : Member K}
    (hml : mats.length + s ≤ mats'.length) (hnl : nodes.length + t ≤ nodes'.length)
    (hm : ∀ q params, mats[q]? = some params → mats'[q + s]? = some params)
    (hn : ∀ (p : ℕ) row, nodes[p]? = some row → ∃ row', nodes'[p + t]? = some row' ∧ row'.drop 1 = row.drop 1)
    (h1 : el'[1]? = el[1]?) (h2 : ∀ mi : ℤ, el[2]? = some mi → el'[2]? = some (mi + s)) (h3 : el'.drop 3 = (el.drop 3).map (· + (t : ℤ)))
    (h0 : ∀ x ∈ el.drop 2, 0 ≤ x) (h : IsMember fn mats nodes el m) : IsMember fn mats' nodes' el' (renameMember (· + t) m) := by
  obtain ⟨ty, mi, params, rows, f, kl, ml, a1, a2, ⟨q, a3, a4⟩, a5, a6, a7, a8, a9⟩ := h
  have hmi : 0 ≤ mi := h0 mi (List.mem_of_getElem? (i := 0) (by rw [List.getElem?_drop]; exact a2))
  have h0' : ∀ x ∈ el.drop 3, 0 ≤ x := fun x hx => h0 x (by
    rw [show 3 = 1 + 2 from rfl, Nat.add_comm, ← List.drop_drop] at hx
    exact List.mem_of_mem_drop hx)
  have hrows : ∃ rows', List.Forall₂ (fun p row => nodes'[p]? = some row) (m.nodes.map (· + t)) rows' ∧
      rows'.map (List.drop 1) = rows.map (List.drop 1) := by
    clear a5 a8
    generalize m.nodes = ps at a6
    induction a6 with
    | nil => exact ⟨[], .nil, rfl⟩
    | cons hd _ ih =>
      obtain ⟨rows', r1, r2⟩ := ih
      obtain ⟨row', e1, e2⟩ := hn _ _ hd
      exact ⟨row' :: rows', .cons e1 r1, by simp only [List.map_cons, e2, r2]⟩
  obtain ⟨rows', r1, r2⟩ := hrows
  refine ⟨ty, mi + s, params, rows', f, kl, ml, by rw [h1, a1], h2 mi a2, ⟨q + s, resolves_shift a3 hmi hml, hm q _ a4⟩, ?_, r1, a7, by
    rw [r2, a8], a9⟩
  rw [h3]
  show List.Forall₂ _ _ (m.nodes.map (· + t))
  rw [List.forall₂_map_left_iff, List.forall₂_map_right_iff]
  clear a6 r1 h3
  generalize el.drop 3 = ids at a5 h0'
  generalize m.nodes = ps at a5
  induction a5 with
  | nil => exact .nil
  | cons hd _ ih => exact .cons (resolves_shift hd (h0' _ (by simp)) hnl) (ih fun x hx => h0' x (List.mem_cons_of_mem _ hx))

theorem rename_zero (m : Member K) : renameMember (· + 0) m = m := by
  unfold renameMember
  simp

theorem laterRow_spec (s t : ℕ) {el : List ℤ} {mi : ℤ} (h : el[2]? = some mi) :
    (laterRow s t el)[1]? = el[1]? ∧ (laterRow s t el)[2]? = some (mi + s) ∧ (laterRow s t el).drop 3 = (el.drop 3).map (· + (t : ℤ)) := by
  rcases el with _ | ⟨_, _ | ⟨_, _ | ⟨x, r⟩⟩⟩
  · simp at h
  · simp at h
  · simp at h
  · simp only [List.getElem?_cons_succ, List.getElem?_cons_zero, Option.some.injEq] at h
    subst h
    simp [laterRow]

theorem Spec.Beside.nodeA (h : Beside a b d) (p : ℕ) (row : List K) (hp : a.nodes[p]? = some row) :
    ∃ row', d.nodes[p]? = some row' ∧ row'.drop 1 = row.drop 1 := by
  have e := congrArg (fun l => l[p]?) h.nodes
  have hl := (List.getElem?_eq_some_iff.1 hp).1
  simp only [List.getElem?_map, List.getElem?_append_left hl, hp, Option.map_some] at e
  obtain ⟨row', e1, e2⟩ := Option.map_eq_some_iff.1 e
  exact ⟨row', e1, e2⟩

theorem Spec.Beside.nodeB (h : Beside a b d) (p : ℕ) (row : List K) (hp : b.nodes[p]? = some row) :
    ∃ row', d.nodes[p + a.nodes.length]? = some row' ∧ row'.drop 1 = row.drop 1 := by
  have e := congrArg (fun l => l[p + a.nodes.length]?) h.nodes
  simp only [List.getElem?_map] at e
  rw [List.getElem?_append_right (by omega), Nat.add_sub_cancel, hp, Option.map_some] at e
  obtain ⟨row', e1, e2⟩ := Option.map_eq_some_iff.1 e
  exact ⟨row', e1, e2⟩

/-- C142.  The elements of the joint model are those of the first and those of the second on their shifted nodes. -/
theorem C142_members (h : Beside a b d) (ha : Members sq a msa) (hb : Members sq b msb) :
    Members sq d (msa ++ msb.map (renameMember (· + a.nodes.length))) := by
  unfold Members at *
  rw [h.elements]
  have hsz := h.size
  refine List.rel_append ?_ ?_
  · have hpl : ∀ el ∈ a.elements, ∀ x ∈ el.drop 2, 0 ≤ x := fun el hel => h.plain el (by simp [hel])
    generalize a.elements = els at ha hpl
    induction ha with
    | nil => exact .nil
    | @cons el m _ _ hd _ ih =>
      refine .cons ?_ (ih fun el hel => hpl el (List.mem_cons_of_mem _ hel))
      rw [← rename_zero m]
      refine isMember_into (s := 0) (t := 0) ?_ ?_ ?_ ?_ rfl ?_ ?_ (hpl el (by simp)) hd
      · rw [h.mats, List.length_append]; omega
      · omega
      · intro q params hq
        rw [h.mats, Nat.add_zero, List.getElem?_append_left (List.getElem?_eq_some_iff.1 hq).1, hq]
      · exact h.nodeA
      · intro mi e; simpa using e
      · simp
  · have hpl : ∀ el ∈ b.elements, ∀ x ∈ el.drop 2, 0 ≤ x := fun el hel => h.plain el (by simp [hel])
    rw [List.forall₂_map_left_iff, List.forall₂_map_right_iff]
    generalize b.elements = els at hb hpl
    induction hb with
    | nil => exact .nil
    | @cons el m _ _ hd _ ih =>
      refine .cons ?_ (ih fun el hel => hpl el (List.mem_cons_of_mem _ hel))
      have hmi : ∃ mi, el[2]? = some mi := by
        obtain ⟨ty, mi, params, rows, f, kl, ml, a1, a2, _⟩ := hd
        exact ⟨mi, a2⟩
      obtain ⟨mi, hmi⟩ := hmi
      obtain ⟨e1, e2, e3⟩ := laterRow_spec a.mats.length a.nodes.length hmi
      refine isMember_into (s := a.mats.length) (t := a.nodes.length) ?_ ?_ ?_ h.nodeB e1 ?_ e3 (hpl el (by simp)) hd
      · rw [h.mats, List.length_append]; omega
      · omega
      · intro q params hq
        rw [h.mats, List.getElem?_append_right (by omega), Nat.add_sub_cancel, hq]
      · intro mi' e
        rw [hmi, Option.some.injEq] at e
        rw [← e]; exact e2

theorem internal_append (nd : ℕ) (l l' : List (Member K)) (u : ℕ → ℕ → K) (p j : ℕ) :
    internal nd (l ++ l') u p j = internal nd l u p j + internal nd l' u p j := by
  unfold internal
  rw [List.map_append, List.sum_append]

theorem internal_outside {nd : ℕ} {l : List (Member K)} {p : ℕ} (h : ∀ m ∈ l, p ∉ m.nodes) (u : ℕ → ℕ → K) (j : ℕ) :
    internal nd l u p j = 0 := by
  unfold internal
  apply List.sum_eq_zero
  intro x hx
  obtain ⟨m, hm, rfl⟩ := List.mem_map.1 hx
  exact Finset.sum_eq_zero fun i _ => if_neg fun e => h m hm (List.mem_of_getElem? e)

theorem beside_internal (hA : ∀ m ∈ msa, ∀ p ∈ m.nodes, p < n) (hB : ∀ m ∈ msb, ∀ p ∈ m.nodes, p < n') (u : ℕ → ℕ → K) (p j : ℕ) :
    (p < n → internal 2 (msa ++ msb.map (renameMember (· + n))) u p j = internal 2 msa u p j) ∧
    (p < n' → internal 2 (msa ++ msb.map (renameMember (· + n))) u (p + n) j = internal 2 msb (fun q c => u (q + n) c) p j) := by
  constructor
  · intro hp
    rw [internal_append, internal_outside (l := msb.map _), add_zero]
    intro m hm hpm
    obtain ⟨m', -, rfl⟩ := List.mem_map.1 hm
    obtain ⟨q, -, rfl⟩ := List.mem_map.1 hpm
    omega
  · intro hp
    rw [internal_append, internal_outside (l := msa), zero_add]
    · exact internal_renumber (π := (· + n)) (fun p _ q _ e => by simpa using e) hB u hp j
    · intro m hm hpm
      have := hA m hm _ hpm
      omega

theorem beside_free (h : Beside a b d) (hsz : a.cons.length = a.nodes.length) (p j : ℕ) :
    (p < a.nodes.length → (Free d.cons 2 p j ↔ Free a.cons 2 p j)) ∧ (Free d.cons 2 (p + a.nodes.length) j ↔ Free b.cons 2 p j) := by
  have e1 : p < a.nodes.length → entry d.cons p j = entry a.cons p j := by
    intro hp
    unfold entry
    rw [h.cons, List.getElem?_append_left (by omega)]
  have e2 : entry d.cons (p + a.nodes.length) j = entry b.cons p j := by
    unfold entry
    rw [h.cons, List.getElem?_append_right (by omega), hsz, Nat.add_sub_cancel]
  unfold Free
  exact ⟨fun hp => by rw [e1 hp], by rw [e2]⟩

/-- C142.  The joint model is stable exactly when both models are. -/
theorem C142_stable_iff (h : Beside a b d) (ha : WellFormed a) (hb : WellFormed b) (hma : Members sq a msa) (hmb : Members sq b msb)
    (hm : Members sq d ms) : Stable d.cons 2 ms ↔ Stable a.cons 2 msa ∧ Stable b.cons 2 msb := by
  obtain rfl := members_unique (C142_members h hma hmb) hm
  have iA := members_inn hma
  have iB := members_inn hmb
  have hl : d.cons.length = a.nodes.length + b.nodes.length := by rw [h.cons, List.length_append, ha.size, hb.size]
  constructor
  · intro hst
    constructor
    · intro u hu h0 p j hp hj
      rw [ha.size] at hp
      have := hst (fun q c => if q < a.nodes.length then u q c else 0) (fun q c hq hc hf => by
          by_cases hqa : q < a.nodes.length
          · simp only [hqa, if_true]
            exact hu q c (by rw [ha.size]; exact hqa) hc fun hf' => hf (((beside_free h ha.size q c).1 hqa).2 hf')
          · simp only [hqa, if_false])
        (fun q c hf => by
          by_cases hqa : q < a.nodes.length
          · rw [(beside_internal iA iB _ q c).1 hqa, internal_congr (v := u) iA (fun p hp j _ => if_pos hp)]
            exact h0 q c (((beside_free h ha.size q c).1 hqa).1 hf)
          · have hqn : q < d.cons.length := free_lt hf
            obtain ⟨r, rfl⟩ := Nat.exists_eq_add_of_le' (Nat.le_of_not_lt hqa)
            rw [(beside_internal iA iB _ r c).2 (by omega), internal_congr (v := fun _ _ => 0) iB
              (fun p hp j _ => if_neg (by omega))]
            unfold internal Member.force
            simp) p j (by omega) hj
      simpa only [hp, if_true] using this
    · intro u hu h0 p j hp hj
      rw [hb.size] at hp
      have := hst (fun q c => if q < a.nodes.length then 0 else u (q - a.nodes.length) c) (fun q c hq hc hf => by
          by_cases hqa : q < a.nodes.length
          · simp only [hqa, if_true]
          · obtain ⟨r, rfl⟩ := Nat.exists_eq_add_of_le' (Nat.le_of_not_lt hqa)
            simp only [hqa, if_false, Nat.add_sub_cancel]
            exact hu r c (by rw [hb.size]; omega) hc fun hf' => hf ((beside_free h ha.size r c).2.2 hf'))
        (fun q c hf => by
          by_cases hqa : q < a.nodes.length
          · rw [(beside_internal iA iB _ q c).1 hqa, internal_congr (v := fun _ _ => 0) iA (fun p hp j _ => if_pos hp)]
            unfold internal Member.force
            simp
          · have hqn : q < d.cons.length := free_lt hf
            obtain ⟨r, rfl⟩ := Nat.exists_eq_add_of_le' (Nat.le_of_not_lt hqa)
            rw [(beside_internal iA iB _ r c).2 (by omega), internal_congr (v := u) iB
              (fun p hp j _ => by rw [if_neg (by omega), Nat.add_sub_cancel])]
            exact h0 r c ((beside_free h ha.size r c).2.1 hf)) (p + a.nodes.length) j (by omega) hj
      simpa using this
  · rintro ⟨sa, sb⟩ u hu h0 p j hp hj
    by_cases hpa : p < a.nodes.length
    · refine sa u (fun q c hq hc hf => ?_) (fun q c hf => ?_) p j (by rw [ha.size]; exact hpa) hj
      · rw [ha.size] at hq
        exact hu q c (by omega) hc fun hf' => hf (((beside_free h ha.size q c).1 hq).1 hf')
      · have hq := free_lt hf
        rw [ha.size] at hq
        rw [← (beside_internal iA iB u q c).1 hq]
        exact h0 q c (((beside_free h ha.size q c).1 hq).2 hf)
    · obtain ⟨r, rfl⟩ := Nat.exists_eq_add_of_le' (Nat.le_of_not_lt hpa)
      refine sb (fun q c => u (q + a.nodes.length) c) (fun q c hq hc hf => ?_) (fun q c hf => ?_) r j (by rw [hb.size]; omega) hj
      · rw [hb.size] at hq
        exact hu _ c (by omega) hc fun hf' => hf ((beside_free h ha.size q c).2.1 hf')
      · have hq := free_lt hf
        rw [hb.size] at hq
        rw [← (beside_internal iA iB u q c).2 hq]
        exact h0 _ c ((beside_free h ha.size q c).2.2 hf)

theorem isLoad_append_left {n p j : ℕ} {l l' : Table K} {x : K} (h : ∀ L ∈ l', ¬ Names n L p) (hx : IsLoad n l p j x) :
    IsLoad n (l ++ l') p j x := by
  rcases hx with ⟨h1, rfl⟩ | ⟨pre, L, post, rfl, h1, h2, h3⟩
  · exact .inl ⟨fun L hL => (List.mem_append.1 hL).elim (h1 L) (h L), rfl⟩
  · exact .inr ⟨pre, L, post ++ l', by simp, h1, fun L' hL' => (List.mem_append.1 hL').elim (h2 L') (h L'), h3⟩

theorem isLoad_append_right {n p j : ℕ} {l l' : Table K} {x : K} (h : ∀ L ∈ l, ¬ Names n L p) (hx : IsLoad n l' p j x) :
    IsLoad n (l ++ l') p j x := by
  rcases hx with ⟨h1, rfl⟩ | ⟨pre, L, post, rfl, h1, h2, h3⟩
  · exact .inl ⟨fun L hL => (List.mem_append.1 hL).elim (h L) (h1 L), rfl⟩
  · exact .inr ⟨l ++ pre, L, post, by simp, h1, h2, h3⟩

theorem isLoad_map {n n' p p' j : ℕ} {l : Table K} {x : K} {g : List K → List K} (h : ∀ L ∈ l, Names n' (g L) p' ↔ Names n L p)
    (hg : ∀ L ∈ l, (g L)[j + 1]? = L[j + 1]?) (hx : IsLoad n l p j x) : IsLoad n' (l.map g) p' j x := by
  rcases hx with ⟨h1, rfl⟩ | ⟨pre, L, post, rfl, h1, h2, h3⟩
  · refine .inl ⟨fun L hL hN => ?_, rfl⟩
    obtain ⟨L', hL', rfl⟩ := List.mem_map.1 hL
    exact h1 L' hL' ((h L' hL').1 hN)
  · refine .inr ⟨pre.map g, g L, post.map g, by simp, (h L (by simp)).2 h1, fun L' hL' hN => ?_, by rw [hg L (by simp), h3]⟩
    obtain ⟨L'', hL'', rfl⟩ := List.mem_map.1 hL'
    exact h2 L'' hL'' ((h L'' (by simp [hL''])).1 hN)

theorem laterLoad_node {t : ℕ} {L : List K} {p : ℕ} (h : L[0]? = some (p : K)) :
    (laterLoad t L)[0]? = some ((p + t : ℕ) : K) ∧ ∀ j : ℕ, (laterLoad t L)[j + 1]? = L[j + 1]? := by
  rcases L with _ | ⟨x, r⟩
  · simp at h
  · simp only [List.getElem?_cons_zero, Option.some.injEq] at h
    subst h
    simp [laterLoad]

theorem beside_loadA (h : Beside a b d) {p j : ℕ} {x : K} (hp : p < a.nodes.length) (hx : IsLoad a.nodes.length a.loads p j x) :
    IsLoad d.nodes.length d.loads p j x := by
  have hsz := h.size
  rw [h.loads]
  refine isLoad_append_left ?_ ?_
  · intro L hL hN
    obtain ⟨L', hL', rfl⟩ := List.mem_map.1 hL
    obtain ⟨q, hq, e⟩ := h.loadsB L' hL'
    rw [names_nat (p := q + a.nodes.length) (by omega) (laterLoad_node e).1] at hN
    omega
  · have := isLoad_map (n := a.nodes.length) (n' := d.nodes.length) (p' := p) (g := id) (fun L hL => ?_) (fun L _ => rfl) hx
    · simpa using this
    · obtain ⟨q, hq, e⟩ := h.loadsA L hL
      rw [id, names_nat (p := q) (by omega) e, names_nat hq e]

theorem beside_loadB (h : Beside a b d) {p j : ℕ} {x : K} (hx : IsLoad b.nodes.length b.loads p j x) :
    IsLoad d.nodes.length d.loads (p + a.nodes.length) j x := by
  have hsz := h.size
  rw [h.loads]
  refine isLoad_append_right ?_ (isLoad_map (fun L hL => ?_) (fun L hL => ?_) hx)
  · intro L hL hN
    obtain ⟨q, hq, e⟩ := h.loadsA L hL
    rw [names_nat (p := q) (by omega) e] at hN
    omega
  · obtain ⟨q, hq, e⟩ := h.loadsB L hL
    rw [names_nat (p := q + a.nodes.length) (by omega) (laterLoad_node e).1, names_nat hq e]
    omega
  · obtain ⟨q, hq, e⟩ := h.loadsB L hL
    exact (laterLoad_node e).2 j

theorem Spec.Beside.wellFormed (h : Beside a b d) (ha : WellFormed a) (hb : WellFormed b) : WellFormed d where
  codes := by
    intro i j x hj hx
    rw [h.cons] at hx
    obtain ⟨row, h1, h2⟩ := entry_some.1 hx
    rcases Nat.lt_or_ge i a.cons.length with hi | hi
    · rw [List.getElem?_append_left hi] at h1
      exact ha.codes i j x hj (entry_some.2 ⟨row, h1, h2⟩)
    · rw [List.getElem?_append_right hi] at h1
      exact hb.codes _ j x hj (entry_some.2 ⟨row, h1, h2⟩)
  width := by
    intro r hr
    rw [h.cons] at hr
    exact (List.mem_append.1 hr).elim (ha.width r) (hb.width r)
  size := by rw [h.cons, List.length_append, h.size, ha.size, hb.size]

/-- C142.  The displacements of the joint model are those of the first model followed by those of the second. -/
theorem C142_displacements (h : Beside a b d) (ha : WellFormed a) (hb : WellFormed b) (hsp : SolverOk sp) (hma : Members sq a msa)
    (hmb : Members sq b msb) (sa : Stable a.cons 2 msa) (sb : Stable b.cons 2 msb) {pl pa pb : Bool} {r ra rb : Gui.Result K}
    (hr : Gui.solidsAuto sq sp de d pl = .ok r) (hra : Gui.solidsAuto sq sp de a pa = .ok ra)
    (hrb : Gui.solidsAuto sq sp de b pb = .ok rb) : r.disp = ra.disp ++ rb.disp := by
  have hwf := h.wellFormed ha hb
  have hm := C142_members h hma hmb
  have hst := (C142_stable_iff h ha hb hma hmb hm).2 ⟨sa, sb⟩
  have hsz := h.size
  obtain ⟨⟨l1, w1⟩, -⟩ := C18_nodal_equilibrium hwf hsp hm hst hr
  obtain ⟨⟨l2, w2⟩, ea⟩ := C18_nodal_equilibrium ha hsp hma sa hra
  obtain ⟨⟨l3, w3⟩, eb⟩ := C18_nodal_equilibrium hb hsp hmb sb hrb
  have iA := members_inn hma
  have iB := members_inn hmb
  have hV : Equilibrium d.cons 2 d.loads (msa ++ msb.map (renameMember (· + a.nodes.length))) (fieldOf (ra.disp ++ rb.disp)) := by
    have f1 : ∀ p < a.nodes.length, ∀ j, fieldOf (ra.disp ++ rb.disp) p j = fieldOf ra.disp p j := by
      intro p hp j
      unfold fieldOf entry
      rw [List.getElem?_append_left (by omega)]
    have f2 : ∀ p j, fieldOf (ra.disp ++ rb.disp) (p + a.nodes.length) j = fieldOf rb.disp p j := by
      intro p j
      unfold fieldOf entry
      rw [List.getElem?_append_right (by omega), l2, Nat.add_sub_cancel]
    refine ⟨fun p j hp hj hf => ?_, fun p j hf => ?_⟩
    · by_cases hpa : p < a.nodes.length
      · rw [f1 p hpa]
        exact ea.1 p j (by rw [ha.size]; exact hpa) hj fun hf' => hf (((beside_free h ha.size p j).1 hpa).2 hf')
      · obtain ⟨q, rfl⟩ := Nat.exists_eq_add_of_le' (Nat.le_of_not_lt hpa)
        rw [hwf.size] at hp
        rw [f2]
        exact eb.1 q j (by rw [hb.size]; omega) hj fun hf' => hf ((beside_free h ha.size q j).2.2 hf')
    · have hp := free_lt hf
      rw [hwf.size] at hp ⊢
      by_cases hpa : p < a.nodes.length
      · rw [(beside_internal iA iB _ p j).1 hpa, internal_congr (v := fieldOf ra.disp) iA (fun p hp j _ => f1 p hp j)]
        refine beside_loadA h hpa ?_
        rw [← ha.size]
        exact ea.2 p j (((beside_free h ha.size p j).1 hpa).1 hf)
      · obtain ⟨q, rfl⟩ := Nat.exists_eq_add_of_le' (Nat.le_of_not_lt hpa)
        rw [(beside_internal iA iB _ q j).2 (by omega), internal_congr (v := fieldOf rb.disp) iB (fun p _ j _ => f2 p j)]
        refine beside_loadB h ?_
        rw [← hb.size]
        exact eb.2 q j ((beside_free h ha.size q j).2.1 hf)
  have key := C19_only_equilibrium hwf hsp hm hst hr hV
  refine List.ext_getElem (by simp [l1, l2, l3, hsz]) fun p h1 h2 => ?_
  have w4 : (ra.disp ++ rb.disp)[p].length = 2 := by
    rcases List.mem_append.1 (List.getElem_mem h2) with hh | hh
    · exact w2 _ hh
    · exact w3 _ hh
  refine List.ext_getElem (by rw [w1 _ (List.getElem_mem h1), w4]) fun j h3 h4 => ?_
  have := key p j (by omega) (by omega)
  unfold fieldOf entry at this
  rw [List.getElem?_eq_getElem h1, List.getElem?_eq_getElem h2] at this
  simpa [List.getElem?_eq_getElem h3, List.getElem?_eq_getElem h4] using this

/-- C142.  The analysis of the joint model returns whenever both models are accepted and stable and one of them has a free degree of
freedom. -/
theorem C142_returns (h : Beside a b d) (pa : PlaneModel a) (pb : PlaneModel b) (hn : ∀ r ∈ d.nodes, r ≠ []) (ha : WellFormed a)
    (hb : WellFormed b) (hsp : SolverOk sp) (hma : Members sq a msa) (hmb : Members sq b msb) (sa : Stable a.cons 2 msa)
    (sb : Stable b.cons 2 msb) (hfree : (∃ p j, Free a.cons 2 p j) ∨ ∃ p j, Free b.cons 2 p j)
    (hla : ∀ L ∈ a.loads, 3 ≤ L.length) (hlb : ∀ L ∈ b.loads, 3 ≤ L.length) :
    ∃ r, Gui.solidsAuto sq sp de d false = .ok r := by
  have hwf := h.wellFormed ha hb
  have hm := C142_members h hma hmb
  have hst := (C142_stable_iff h ha hb hma hmb hm).2 ⟨sa, sb⟩
  have hsz := h.size
  refine C93_solids_auto_returns ⟨?_, ?_⟩ hwf hsp hm hst ?_ ?_
  · intro r hr
    obtain ⟨i, hi, rfl⟩ := List.mem_iff_getElem.1 hr
    have hlen : ∀ s ∈ d.nodes.map (List.drop 1), s.length = 2 := by
      intro s hs
      rw [h.nodes] at hs
      obtain ⟨s', hs', rfl⟩ := List.mem_map.1 hs
      have := (List.mem_append.1 hs').elim (pa.nodes s') (pb.nodes s')
      simp [this]
    have h1 := hlen _ (List.mem_map.2 ⟨_, hr, rfl⟩)
    have h2 := List.length_pos_iff.2 (hn _ hr)
    rw [List.length_drop] at h1
    omega
  · intro el hel ty hty
    rw [h.elements] at hel
    rcases List.mem_append.1 hel with hel | hel
    · exact pa.types el hel ty hty
    · obtain ⟨el', hel', rfl⟩ := List.mem_map.1 hel
      obtain ⟨i, hi, rfl⟩ := List.mem_iff_getElem.1 hel'
      obtain ⟨ty', mi, params, rows, f, kl, ml, a1, a2, _⟩ := hmb.get (i := i) hi (by rw [← hmb.length_eq]; exact hi)
      simp only [List.get_eq_getElem] at a2
      obtain ⟨e1, e2, e3⟩ := laterRow_spec a.mats.length a.nodes.length a2
      rw [e3, List.length_map]
      rw [e1] at hty
      exact pb.types _ hel' ty hty
  · rcases hfree with ⟨p, j, hf⟩ | ⟨p, j, hf⟩
    · have hp := free_lt hf
      rw [ha.size] at hp
      exact ⟨p, j, ((beside_free h ha.size p j).1 hp).2 hf⟩
    · exact ⟨_, j, (beside_free h ha.size p j).2.2 hf⟩
  · intro L hL
    rw [h.loads] at hL
    rcases List.mem_append.1 hL with hL | hL
    · obtain ⟨p, hp, e⟩ := h.loadsA L hL
      exact ⟨hla L hL, p, (names_nat (by omega) e).2 rfl⟩
    · obtain ⟨L', hL', rfl⟩ := List.mem_map.1 hL
      obtain ⟨p, hp, e⟩ := h.loadsB L' hL'
      refine ⟨?_, p + a.nodes.length, (names_nat (by omega) (laterLoad_node e).1).2 rfl⟩
      have := hlb L' hL'
      rcases L' with _ | ⟨x, r⟩
      · exact this
      · exact this

end

section demo

/-- Two trusses in one model. -/
def twoTrusses : Gui.Data ℚ where
  nodes := [[0, 0, 0], [1, 4, 0], [2, 4, 3], [3, 0, 0], [4, 4, 0], [5, 4, 3]]
  cons := [[-1, -1], [-1, -1], [0, 0], [-1, -1], [-1, -1], [0, 0]]
  elements := [[0, 6, 0, 0, 2], [1, 6, 1, 1, 2], [0, 6, 2, 3, 5], [1, 6, 3, 4, 5]]
  mats := [[125, 1], [9, 1], [125, 1], [9, 1]]
  loads := [[2, 4, -6], [5, 4, -6]]

theorem two_beside : Beside demoTruss demoTruss twoTrusses where
  nodes := rfl
  cons := rfl
  mats := rfl
  elements := rfl
  loads := by decide +kernel
  plain := by decide
  loadsA := by decide +kernel
  loadsB := by decide +kernel

/-- Case for C142: the joint model of two trusses is solved by the displacements of each. -/
example : ∃ r, Gui.solidsAuto demoSq cramerSolver cramerSolver twoTrusses false = .ok r ∧
    r.disp = [[0, 0], [0, 0], [5/2, -3], [0, 0], [0, 0], [5/2, -3]] := by
  obtain ⟨res, h, hd, _⟩ := demo_ok
  obtain ⟨ms, hms, hst⟩ := demo_stable
  have pm : PlaneModel demoTruss := ⟨by decide, fun el hel ty hty => by
    simp only [demoTruss, List.mem_cons, List.not_mem_nil, or_false] at hel
    rcases hel with rfl | rfl
    all_goals
      simp only [List.getElem?_cons_succ, List.getElem?_cons_zero, Option.some.injEq] at hty
      subst hty
      exact .inr ⟨rfl, rfl⟩⟩
  obtain ⟨r, hr⟩ := C142_returns (sq := demoSq) (de := cramerSolver) two_beside pm pm (by decide) demo_wf demo_wf cramerSolver_ok hms hms hst hst
    (.inl ⟨2, 0, by decide, by decide +kernel⟩) (by decide) (by decide)
  refine ⟨r, hr, ?_⟩
  rw [C142_displacements two_beside demo_wf demo_wf cramerSolver_ok hms hms hst hst hr h h, hd]
  rfl

end demo
end SolidsPy
