import Verif.Props.BlochModes

/-! # C85: which vectors the Bloch transformation reaches, and when it is computed -/

set_option linter.unusedSectionVars false

namespace SolidsPy
open Spec Assem Matrix Bloch

/-- C83.  The degrees of freedom that are not images get numbers below the number of columns. -/
theorem C83_columns {ndofs : ℕ} {ima ref out : List ℤ} (h : reassignDof ndofs ima ref = .ok out) (hn : ima.Nodup)
    (hr : ∀ z ∈ ima, 0 ≤ z ∧ z < ndofs) (hl : ref.length = ima.length) :
    ref.length ≤ ndofs ∧ ∀ e : ℕ, e < ndofs → (e : ℤ) ∉ ima → ∃ c : Fin (ndofs - ref.length), out[e]? = some ((c : ℕ) : ℤ) := by
  obtain ⟨-, h2⟩ := reassign_ok h
  have h3 := images_count hn hr
  have h4 := kept_length ndofs ima
  refine ⟨by omega, fun e he hk => ?_⟩
  obtain ⟨x, hx, h5⟩ := h2 e he
  rcases h5 with ⟨-, h5⟩ | ⟨h5, -⟩
  · have h6 := (images_gap ima e ndofs he.le).2 he hk
    have h7 := kept_length e ima
    have hb : e - imagesBelow ima e < ndofs - ref.length := by omega
    refine ⟨⟨_, hb⟩, ?_⟩
    rw [hx, h5, Option.some.injEq]
    dsimp only
    omega
  · exact absurd h5 hk

section
variable {wave : List ℝ} {coords : List (List ℝ)} {ndofs : ℕ} {nodesRef nodesIma dofsRef dofsIma : List ℤ}
    {refDof imaDof : ℤ → Option (List ℤ)} {newNum : List ℤ}
    {T : Matrix (Fin ndofs) (Fin (ndofs - dofsRef.length)) ℂ}

/-- C85.  The vectors `T q` are exactly those whose value at every image is the value at its reference times the phase of the
vector from the reference node to the image node. -/
theorem C85_range (h : blochTransformMat wave coords ndofs nodesRef nodesIma dofsRef dofsIma refDof imaDof newNum = .ok T)
    (hp : Pairing ndofs dofsIma (links nodesIma nodesRef refDof imaDof))
    (hsurj : ∀ c : Fin (ndofs - dofsRef.length), ∃ d : ℕ, d < ndofs ∧ (d : ℤ) ∉ dofsIma ∧ newNum[d]? = some ((c : ℕ) : ℤ))
    (hinj : ∀ d e : ℕ, d < ndofs → e < ndofs → (d : ℤ) ∉ dofsIma → (e : ℤ) ∉ dofsIma → newNum[d]? = newNum[e]? → d = e)
    (u : Fin ndofs → ℂ) :
    (∃ q, T.mulVec q = u) ↔ ∀ l ∈ links nodesIma nodesRef refDof imaDof, ∀ (d r : Fin ndofs) (φ : ℝ),
      l.ima = ((d : ℕ) : ℤ) → l.ref = ((r : ℕ) : ℤ) → Shift wave coords l.nodeIma l.nodeRef φ →
      u d = Complex.exp (Complex.I * (φ : ℂ)) * u r := by
  constructor
  · rintro ⟨q, rfl⟩ l hl d r φ h1 h2 h3
    obtain ⟨d', r', φ', f1, f2, f3, f4⟩ := C85_images h hp q l hl
    obtain rfl : d' = d := Fin.ext (by exact_mod_cast f1.symm.trans h1)
    obtain rfl : r' = r := Fin.ext (by exact_mod_cast f2.symm.trans h2)
    rw [shift_unique h3 f3]
    exact f4
  · intro hu
    choose e he hk hn using hsurj
    let q : Fin (ndofs - dofsRef.length) → ℂ := fun c => u ⟨e c, he c⟩
    have kept : ∀ i : Fin ndofs, ((i : ℕ) : ℤ) ∉ dofsIma → T.mulVec q i = u i := by
      intro i hi
      obtain ⟨c, h1, h2⟩ := C85_kept h hp q i hi
      rw [h2]
      show u ⟨e c, he c⟩ = u i
      congr 1
      exact Fin.ext (hinj _ _ (he c) i.2 (hk c) hi (by rw [hn, h1]))
    refine ⟨q, funext fun i => ?_⟩
    by_cases hi : ((i : ℕ) : ℤ) ∈ dofsIma
    · obtain ⟨l, hl, hli⟩ := hp.all i i.2 hi
      obtain ⟨d, r, φ, f1, f2, f3, f4⟩ := C85_images h hp q l hl
      obtain rfl : d = i := Fin.ext (by exact_mod_cast f1.symm.trans hli)
      rw [f4, kept r (by rw [← f2]; exact (hp.source l hl).1), hu l hl d r φ f1 f2 f3]
    · exact kept i hi

/-- C85.  The transformation is computed when the images are tied once, their nodes have coordinates and degrees of freedom, the
wave vector has as many components as the coordinates, and the degrees of freedom that are not images have numbers in range. -/
theorem C85_returns (hp : Pairing ndofs dofsIma (links nodesIma nodesRef refDof imaDof))
    (hin : ∀ z ∈ dofsIma, 0 ≤ z ∧ z < ndofs) (hl : dofsRef.length ≤ ndofs)
    (hnum : ∀ e : ℕ, e < ndofs → (e : ℤ) ∉ dofsIma → ∃ c : Fin (ndofs - dofsRef.length), newNum[e]? = some ((c : ℕ) : ℤ))
    (hpair : ∀ p ∈ nodesIma.zip nodesRef, (∃ φ, Shift wave coords p.1 p.2 φ) ∧ (∃ l, imaDof p.1 = some l) ∧ ∃ l, refDof p.2 = some l) :
    ∃ T, blochTransformMat wave coords ndofs nodesRef nodesIma dofsRef dofsIma refDof imaDof newNum = .ok T := by
  obtain ⟨inner, hi⟩ : ∃ inner, innerEntries ndofs dofsIma newNum = .ok inner := by
    unfold innerEntries
    refine mapM_exists.2 fun e he => ?_
    rw [List.mem_filter, List.mem_range, decide_eq_true_eq] at he
    obtain ⟨c, hc⟩ := hnum e he.1 he.2
    exact ⟨_, bind_ok.2 ⟨_, pyGet_nat.2 hc, rfl⟩⟩
  have hone : ∀ p ∈ nodesIma.zip nodesRef, ∃ b, blochPair wave coords refDof imaDof newNum p = .ok b ∧
      ∀ t ∈ b, 0 ≤ t.1 ∧ t.1 < (ndofs : ℤ) ∧ 0 ≤ t.2.1 ∧ t.2.1 < ((ndofs - dofsRef.length : ℕ) : ℤ) := by
    intro p hpp
    obtain ⟨⟨φ, ki, kr, xi, xr, s1, s2, s3, s4, s5, -⟩, ⟨li, hli⟩, lr, hlr⟩ := hpair p hpp
    have hlink : ∀ c ∈ lr.zip li, (⟨c.2, c.1, p.1, p.2⟩ : Link) ∈ links nodesIma nodesRef refDof imaDof := by
      intro c hc
      unfold links
      rw [List.mem_flatMap]
      refine ⟨p, hpp, ?_⟩
      rw [hli, hlr, List.mem_map]
      exact ⟨c, hc, rfl⟩
    have hcol : ∀ c ∈ lr.zip li, ∃ k : Fin (ndofs - dofsRef.length), pyGet newNum c.1 = .ok ((k : ℕ) : ℤ) := by
      intro c hc
      obtain ⟨a1, a2, a3⟩ := hp.source _ (hlink c hc)
      dsimp only at a1 a2 a3
      obtain ⟨n, hn⟩ := Int.eq_ofNat_of_zero_le a2
      obtain ⟨k, hk⟩ := hnum n (by omega) (by rw [← hn]; exact a1)
      exact ⟨k, by rw [hn]; exact pyGet_nat.2 hk⟩
    have g1 : pyGet coords p.1 = .ok xi := pyGet_resolves.2 ⟨ki, s1, s3⟩
    have g2 : pyGet coords p.2 = .ok xr := pyGet_resolves.2 ⟨kr, s2, s4⟩
    obtain ⟨b, hb⟩ : ∃ b, blochPair wave coords refDof imaDof newNum p = .ok b := by
      unfold blochPair
      rw [g1, ok_bind, g2, ok_bind]
      unfold dot
      rw [if_pos (by rw [List.length_zipWith]; exact s5), ok_bind, hli, hlr]
      dsimp only
      rw [ok_bind, ok_bind]
      refine mapM_exists.2 fun c hc => ?_
      obtain ⟨k, hk⟩ := hcol c hc
      exact ⟨_, bind_ok.2 ⟨_, hk, rfl⟩⟩
    refine ⟨b, hb, fun t ht => ?_⟩
    unfold blochPair at hb
    rw [g1, ok_bind, g2, ok_bind] at hb
    unfold dot at hb
    rw [if_pos (by rw [List.length_zipWith]; exact s5), ok_bind, hli, hlr] at hb
    dsimp only at hb
    rw [ok_bind, ok_bind] at hb
    obtain ⟨i, hi', rfl⟩ := List.mem_iff_getElem.1 ht
    have hf := mapM_ok.1 hb
    have hi2 : i < (lr.zip li).length := by rw [hf.length_eq]; exact hi'
    have hg := hf.get (i := i) hi2 hi'
    rw [List.get_eq_getElem, List.get_eq_getElem] at hg
    have hm := List.getElem_mem hi2
    obtain ⟨k, hk⟩ := hcol _ hm
    rw [hk, ok_bind] at hg
    rw [← pure_ok.1 hg]
    have := hin _ (hp.image _ (hlink _ hm))
    dsimp only at this ⊢
    have := k.2
    omega
  obtain ⟨bl, hbl⟩ : ∃ bl, (nodesIma.zip nodesRef).mapM (blochPair wave coords refDof imaDof newNum) = .ok bl :=
    mapM_exists.2 fun p hpp => ⟨_, (hone p hpp).choose_spec.1⟩
  unfold blochTransformMat
  rw [hi, ok_bind, hbl, ok_bind, if_neg (by omega)]
  unfold cooMatrix
  refine ⟨_, if_pos ?_⟩
  rw [List.all_eq_true]
  intro t ht
  rw [decide_eq_true_eq]
  rcases List.mem_append.1 ht with ht | ht
  · unfold innerEntries at hi
    obtain ⟨k, hk, rfl⟩ := List.mem_iff_getElem.1 ht
    have hf := mapM_ok.1 hi
    have hk' : k < (List.filter (fun d : ℕ => decide ((d : ℤ) ∉ dofsIma)) (List.range ndofs)).length := by rw [hf.length_eq]; exact hk
    have hg := hf.get (i := k) hk' hk
    rw [List.get_eq_getElem, List.get_eq_getElem] at hg
    have hm := List.getElem_mem hk'
    generalize (List.filter (fun d : ℕ => decide ((d : ℤ) ∉ dofsIma)) (List.range ndofs))[k] = e at *
    rw [List.mem_filter, List.mem_range, decide_eq_true_eq] at hm
    obtain ⟨c, hc⟩ := hnum e hm.1 hm.2
    rw [pyGet_nat.2 hc, ok_bind] at hg
    rw [← pure_ok.1 hg]
    have := c.2
    dsimp only
    omega
  · obtain ⟨b, hb, htb⟩ := List.mem_flatten.1 ht
    obtain ⟨k, hk, rfl⟩ := List.mem_iff_getElem.1 hb
    have hf := mapM_ok.1 hbl
    have hk' : k < (nodesIma.zip nodesRef).length := by rw [hf.length_eq]; exact hk
    have hg := hf.get (i := k) hk' hk
    rw [List.get_eq_getElem, List.get_eq_getElem] at hg
    obtain ⟨b', hb', hbt⟩ := hone _ (List.getElem_mem hk')
    rw [hg, Except.ok.injEq] at hb'
    rw [hb'] at htb
    exact hbt t htb

theorem innerEntries_ok (hnum : ∀ e : ℕ, e < ndofs → (e : ℤ) ∉ dofsIma → e < newNum.length) :
    ∃ inner, innerEntries ndofs dofsIma newNum = .ok inner := by
  unfold innerEntries
  refine mapM_exists.2 fun e he => ?_
  rw [List.mem_filter, List.mem_range, decide_eq_true_eq] at he
  exact ⟨_, bind_ok.2 ⟨_, pyGet_nat.2 (List.getElem?_eq_getElem (hnum e he.1 he.2)), rfl⟩⟩

/-- C85.  A wave vector with a number of components other than that of the coordinates is a `ValueError`. -/
theorem C85_wrong_wave {i r : ℤ} {ki kr : ℕ} {xi xr : List ℝ} {restI restR : List ℤ}
    (hnum : ∀ e : ℕ, e < ndofs → (e : ℤ) ∉ dofsIma → e < newNum.length)
    (h1 : Resolves coords.length i ki) (h2 : Resolves coords.length r kr) (h3 : coords[ki]? = some xi) (h4 : coords[kr]? = some xr)
    (hl : wave.length ≠ min xi.length xr.length) :
    blochTransformMat wave coords ndofs (r :: restR) (i :: restI) dofsRef dofsIma refDof imaDof newNum = .error .valueError := by
  obtain ⟨inner, hi⟩ := innerEntries_ok hnum
  unfold blochTransformMat
  rw [hi, ok_bind, List.zip_cons_cons, List.mapM_cons]
  unfold blochPair
  dsimp only
  rw [pyGet_resolves.2 ⟨ki, h1, h3⟩, ok_bind, pyGet_resolves.2 ⟨kr, h2, h4⟩, ok_bind]
  unfold dot
  rw [if_neg (by rw [List.length_zipWith]; exact hl)]
  rfl

/-- C85.  A node whose degrees of freedom are not in the dictionaries is a `KeyError`. -/
theorem C85_no_entry {i r : ℤ} {φ : ℝ} {restI restR : List ℤ} (hnum : ∀ e : ℕ, e < ndofs → (e : ℤ) ∉ dofsIma → e < newNum.length)
    (hs : Shift wave coords i r φ) (hno : refDof r = none ∨ imaDof i = none) :
    blochTransformMat wave coords ndofs (r :: restR) (i :: restI) dofsRef dofsIma refDof imaDof newNum = .error .keyError := by
  obtain ⟨inner, hi⟩ := innerEntries_ok hnum
  obtain ⟨ki, kr, xi, xr, h1, h2, h3, h4, h5, -⟩ := hs
  unfold blochTransformMat
  rw [hi, ok_bind, List.zip_cons_cons, List.mapM_cons]
  unfold blochPair
  dsimp only
  rw [pyGet_resolves.2 ⟨ki, h1, h3⟩, ok_bind, pyGet_resolves.2 ⟨kr, h2, h4⟩, ok_bind]
  unfold dot
  rw [if_pos (by rw [List.length_zipWith]; exact h5), ok_bind]
  rcases hno with h | h
  · rw [h]
    rfl
  · rw [h]
    cases refDof r <;> rfl

/-- C85.  More reference degrees of freedom than degrees of freedom are a `ValueError`. -/
theorem C85_too_many (hnum : ∀ e : ℕ, e < ndofs → (e : ℤ) ∉ dofsIma → e < newNum.length) (hl : ndofs < dofsRef.length)
    (hpair : ∀ p ∈ nodesIma.zip nodesRef, (∃ φ, Shift wave coords p.1 p.2 φ) ∧ (∃ l, imaDof p.1 = some l) ∧
      ∃ l, refDof p.2 = some l ∧ ∀ z ∈ l, ∃ k, Resolves newNum.length z k) :
    blochTransformMat wave coords ndofs nodesRef nodesIma dofsRef dofsIma refDof imaDof newNum = .error .valueError := by
  obtain ⟨inner, hi⟩ := innerEntries_ok hnum
  obtain ⟨bl, hb⟩ : ∃ bl, (nodesIma.zip nodesRef).mapM (blochPair wave coords refDof imaDof newNum) = .ok bl := by
    refine mapM_exists.2 fun p hp => ?_
    obtain ⟨⟨φ, ki, kr, xi, xr, h1, h2, h3, h4, h5, -⟩, ⟨li, e1⟩, lr, e2, e3⟩ := hpair p hp
    unfold blochPair
    rw [pyGet_resolves.2 ⟨ki, h1, h3⟩, ok_bind, pyGet_resolves.2 ⟨kr, h2, h4⟩, ok_bind]
    unfold dot
    rw [if_pos (by rw [List.length_zipWith]; exact h5), ok_bind, e1, e2]
    dsimp only
    rw [ok_bind, ok_bind]
    refine mapM_exists.2 fun c hc => ?_
    obtain ⟨k, hk⟩ := e3 c.1 (List.of_mem_zip (show (c.1, c.2) ∈ _ from hc)).1
    exact ⟨_, bind_ok.2 ⟨_, pyGet_resolves.2 ⟨k, hk, List.getElem?_eq_getElem hk.1⟩, rfl⟩⟩
  unfold blochTransformMat
  rw [hi, ok_bind, hb, ok_bind, if_pos hl]
  rfl

/-- Two nodes on a line, one the image of the other, with a wave vector of one, of two components, and with too many references. -/
example : blochTransformMat [1] [[0, 0], [1, 0]] 2 [0] [1] [0] [1] (fun _ => some [0]) (fun _ => some [1]) [0, 0] = .error .valueError :=
  C85_wrong_wave (ki := 1) (kr := 0) (xi := [1, 0]) (xr := [0, 0]) (fun _ h _ => h) ⟨by simp, .inl rfl⟩ ⟨by simp, .inl rfl⟩ rfl rfl (by simp)

example : blochTransformMat [1, 2] [[0, 0], [1, 0]] 2 [0] [1] [0] [1] (fun _ => none) (fun _ => some [1]) [0, 0] = .error .keyError :=
  C85_no_entry (φ := 1) (fun _ h _ => h) ⟨1, 0, [1, 0], [0, 0], ⟨by simp, .inl rfl⟩, ⟨by simp, .inl rfl⟩, rfl, rfl, rfl, by
    show _ = ∑ t : Fin 2, _
    rw [Fin.sum_univ_two]
    simp⟩ (.inl rfl)

example : blochTransformMat [1, 2] [[0, 0], [1, 0]] 2 [] [] [0, 1, 2] [1] (fun _ => none) (fun _ => some [1]) [0, 0] = .error .valueError :=
  C85_too_many (fun _ h _ => h) (by simp) (by simp)

end

end SolidsPy
