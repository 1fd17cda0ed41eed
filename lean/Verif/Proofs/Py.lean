import Verif.Basic

/-! Lemmas about the Python layer (exceptions, indexing, loops). -/

namespace SolidsPy

variable {α β σ : Type}

theorem bind_ok {x : Py α} {f : α → Py β} {b : β} :
    (x >>= f) = .ok b ↔ ∃ a, x = .ok a ∧ f a = .ok b := by
  cases x with
  | error e => simp [bind, Except.bind]
  | ok a => simp [bind, Except.bind]

theorem pure_ok {a b : α} : (pure a : Py α) = .ok b ↔ a = b := by
  simp [pure, Except.pure]

@[simp] theorem ok_bind (a : α) (f : α → Py β) : ((Except.ok a : Py α) >>= f) = f a := rfl

@[simp] theorem error_bind (e : PyErr) (f : α → Py β) :
    ((Except.error e : Py α) >>= f) = .error e := rfl

theorem py_not_ok {x : Py α} : (¬ ∃ a, x = .ok a) ↔ ∃ e, x = .error e := by
  cases x <;> simp

theorem pyFin_ok {n : ℕ} {i : ℤ} {k : Fin n} :
    pyFin n i = .ok k ↔ i = (k : ℤ) ∨ i = (k : ℤ) - n := by
  have hk := k.2
  unfold pyFin
  split
  · rename_i h
    simp only [Except.ok.injEq, Fin.ext_iff]
    omega
  · rename_i h
    split
    · simp only [Except.ok.injEq, Fin.ext_iff]
      omega
    · simp only [reduceCtorEq, false_iff]
      omega

theorem pyFin_nat {n k : ℕ} (h : k < n) : pyFin n (k : ℤ) = .ok ⟨k, h⟩ :=
  pyFin_ok.2 (Or.inl rfl)

theorem pyFin_exists {n : ℕ} {i : ℤ} : (∃ k, pyFin n i = .ok k) ↔ -(n : ℤ) ≤ i ∧ i < n := by
  constructor
  · rintro ⟨k, hk⟩
    rcases pyFin_ok.1 hk with h | h <;> have := k.2 <;> omega
  · intro h
    unfold pyFin
    split
    · exact ⟨_, rfl⟩
    · split
      · exact ⟨_, rfl⟩
      · omega

theorem pyFin_error {n : ℕ} {i : ℤ} {e : PyErr} (h : pyFin n i = .error e) : e = .indexError := by
  unfold pyFin at h
  split at h
  · simp at h
  · split at h
    · simp at h
    · simpa using h.symm

theorem pyGet_nat {l : List α} {n : ℕ} {x : α} : pyGet l (n : ℤ) = .ok x ↔ l[n]? = some x := by
  unfold pyGet
  by_cases h : n < l.length
  · rw [pyFin_nat h]
    simp [List.getElem?_eq_getElem h]
  · have : pyFin l.length (n : ℤ) = .error .indexError := by
      unfold pyFin
      rw [dif_neg (by omega), dif_neg (by omega)]
    rw [this]
    simp only [reduceCtorEq, false_iff]
    rw [List.getElem?_eq_none (by omega)]
    simp

theorem pyGet_zero {l : List α} {x : α} : pyGet l 0 = .ok x ↔ l[0]? = some x := by
  simpa using pyGet_nat (l := l) (n := 0) (x := x)

theorem pyGet_one {l : List α} {x : α} : pyGet l 1 = .ok x ↔ l[1]? = some x := by
  simpa using pyGet_nat (l := l) (n := 1) (x := x)

theorem pyGet_two {l : List α} {x : α} : pyGet l 2 = .ok x ↔ l[2]? = some x := by
  simpa using pyGet_nat (l := l) (n := 2) (x := x)

theorem pyGet_nonneg {l : List α} {i : ℤ} (hi : 0 ≤ i) {x : α} :
    pyGet l i = .ok x ↔ l[i.toNat]? = some x := by
  obtain ⟨n, rfl⟩ := Int.eq_ofNat_of_zero_le hi
  simpa using pyGet_nat

theorem pyGet_error {l : List α} {i : ℤ} {e : PyErr} (h : pyGet l i = .error e) :
    e = .indexError := by
  unfold pyGet at h
  split at h
  · simp at h
  · rename_i h'
    simp only [Except.error.injEq] at h
    subst h
    exact pyFin_error h'

theorem pyGet_mem {l : List α} {i : ℤ} {x : α} (h : pyGet l i = .ok x) : x ∈ l := by
  unfold pyGet at h
  split at h
  · simp only [Except.ok.injEq] at h
    subst h
    exact List.get_mem _ _
  · simp at h

theorem pyGet_map {f : α → β} {l : List α} {i : ℤ} :
    pyGet (l.map f) i = (pyGet l i).map f := by
  unfold pyGet
  have hlen : (l.map f).length = l.length := List.length_map ..
  rcases h : pyFin l.length i with e | k
  · have : pyFin (l.map f).length i = .error e := by rw [hlen]; exact h
    rw [this]; rfl
  · have : pyFin (l.map f).length i = .ok (Fin.cast hlen.symm k) := by
      rw [pyFin_ok] at h ⊢
      simpa using h
    rw [this]
    simp [Except.map]

/-- `mapM` succeeds with `r` exactly when every element succeeds with the matching one of `r`. -/
theorem mapM_ok {f : α → Py β} {l : List α} {r : List β} :
    l.mapM f = .ok r ↔ List.Forall₂ (fun a b => f a = .ok b) l r := by
  induction l generalizing r with
  | nil =>
    simp only [List.mapM_nil, pure_ok, List.forall₂_nil_left_iff]
    exact eq_comm
  | cons a l ih =>
    rw [List.mapM_cons, bind_ok]
    constructor
    · rintro ⟨b, hb, h⟩
      rw [bind_ok] at h
      obtain ⟨bs, hbs, h⟩ := h
      rw [pure_ok] at h
      subst h
      exact .cons hb (ih.1 hbs)
    · rintro h
      cases h with
      | cons hb h =>
        exact ⟨_, hb, bind_ok.2 ⟨_, ih.2 h, pure_ok.2 rfl⟩⟩

theorem mapM_length {f : α → Py β} {l : List α} {r : List β} (h : l.mapM f = .ok r) :
    r.length = l.length := (mapM_ok.1 h).length_eq.symm

theorem mapM_getElem? {f : α → Py β} {l : List α} {r : List β} (h : l.mapM f = .ok r) {i : ℕ}
    {a : α} (ha : l[i]? = some a) : ∃ b, r[i]? = some b ∧ f a = .ok b := by
  have h2 := mapM_ok.1 h
  obtain ⟨hi, rfl⟩ := List.getElem?_eq_some_iff.1 ha
  have hi' : i < r.length := by rw [mapM_length h]; exact hi
  exact ⟨r[i], List.getElem?_eq_getElem hi', h2.get hi hi'⟩

theorem mapM_exists {f : α → Py β} {l : List α} :
    (∃ r, l.mapM f = .ok r) ↔ ∀ a ∈ l, ∃ b, f a = .ok b := by
  induction l with
  | nil => simp [pure, Except.pure]
  | cons a l ih =>
    constructor
    · rintro ⟨r, hr⟩
      rw [mapM_ok] at hr
      cases hr with
      | cons hb h =>
        intro x hx
        rcases List.mem_cons.1 hx with rfl | hx
        · exact ⟨_, hb⟩
        · exact (ih.1 ⟨_, mapM_ok.2 h⟩) x hx
    · intro h
      obtain ⟨b, hb⟩ := h a (by simp)
      obtain ⟨r, hr⟩ := ih.2 fun x hx => h x (by simp [hx])
      exact ⟨b :: r, mapM_ok.2 (.cons hb (mapM_ok.1 hr))⟩

theorem mapM_congr {f g : α → Py β} {l : List α} (h : ∀ a ∈ l, f a = g a) :
    l.mapM f = l.mapM g := by
  induction l with
  | nil => rfl
  | cons a l ih =>
    rw [List.mapM_cons, List.mapM_cons, h a (by simp), ih fun x hx => h x (by simp [hx])]

/-- A loop whose step adds `g x` to the state when `P x` holds and raises otherwise. -/
theorem foldlM_adds {A : Type} [AddMonoid A] {step : A → σ → Py A} {P : σ → Prop} {g : σ → A}
    {l : List σ} (hok : ∀ acc, ∀ x ∈ l, P x → step acc x = .ok (acc + g x))
    (herr : ∀ acc, ∀ x ∈ l, ¬ P x → ∃ e, step acc x = .error e) (acc : A) :
    ((∀ x ∈ l, P x) → l.foldlM step acc = .ok (acc + (l.map g).sum)) ∧
    (¬ (∀ x ∈ l, P x) → ∃ e, l.foldlM step acc = .error e) := by
  induction l generalizing acc with
  | nil => simp [pure, Except.pure]
  | cons a l ih =>
    have ih' := ih (fun acc x hx => hok acc x (by simp [hx]))
      (fun acc x hx => herr acc x (by simp [hx]))
    rw [List.foldlM_cons]
    by_cases ha : P a
    · rw [hok acc a (by simp) ha, ok_bind]
      constructor
      · intro h
        rw [(ih' _).1 fun x hx => h x (by simp [hx])]
        simp [add_assoc]
      · intro h
        exact (ih' _).2 fun h' => h fun x hx => by
          rcases List.mem_cons.1 hx with rfl | hx
          · exact ha
          · exact h' x hx
    · obtain ⟨e, he⟩ := herr acc a (by simp) ha
      rw [he, error_bind]
      exact ⟨fun h => absurd (h a (by simp)) ha, fun _ => ⟨e, rfl⟩⟩

/-- Same for a loop that appends. -/
theorem foldlM_appends {step : List β → σ → Py (List β)} {P : σ → Prop} {g : σ → List β}
    {l : List σ} (hok : ∀ acc, ∀ x ∈ l, P x → step acc x = .ok (acc ++ g x))
    (herr : ∀ acc, ∀ x ∈ l, ¬ P x → ∃ e, step acc x = .error e) (acc : List β) :
    ((∀ x ∈ l, P x) → l.foldlM step acc = .ok (acc ++ l.flatMap g)) ∧
    (¬ (∀ x ∈ l, P x) → ∃ e, l.foldlM step acc = .error e) := by
  induction l generalizing acc with
  | nil => simp [pure, Except.pure]
  | cons a l ih =>
    have ih' := ih (fun acc x hx => hok acc x (by simp [hx]))
      (fun acc x hx => herr acc x (by simp [hx]))
    rw [List.foldlM_cons]
    by_cases ha : P a
    · rw [hok acc a (by simp) ha, ok_bind]
      constructor
      · intro h
        rw [(ih' _).1 fun x hx => h x (by simp [hx])]
        simp [List.append_assoc]
      · intro h
        exact (ih' _).2 fun h' => h fun x hx => by
          rcases List.mem_cons.1 hx with rfl | hx
          · exact ha
          · exact h' x hx
    · obtain ⟨e, he⟩ := herr acc a (by simp) ha
      rw [he, error_bind]
      exact ⟨fun h => absurd (h a (by simp)) ha, fun _ => ⟨e, rfl⟩⟩

section trunc
variable {K : Type} [Field K] [LinearOrder K] [IsStrictOrderedRing K] [FloorRing K]

/-- The integer part is 0 exactly on the open interval (-1, 1). -/
theorem pyTrunc_eq_zero {x : K} : pyTrunc x = 0 ↔ -1 < x ∧ x < 1 := by
  unfold pyTrunc
  split
  · rename_i h
    rw [Int.floor_eq_zero_iff, Set.mem_Ico]
    constructor
    · rintro ⟨_, h2⟩
      exact ⟨by linarith, h2⟩
    · rintro ⟨_, h2⟩
      exact ⟨h, h2⟩
  · rename_i h
    rw [Int.ceil_eq_zero_iff, Set.mem_Ioc]
    constructor
    · rintro ⟨h1, _⟩
      exact ⟨h1, by linarith⟩
    · rintro ⟨h1, _⟩
      exact ⟨h1, by linarith⟩

theorem pyTrunc_intCast (z : ℤ) : pyTrunc (z : K) = z := by
  unfold pyTrunc
  split <;> simp

theorem pyTrunc_natCast (z : ℕ) : pyTrunc (z : K) = z := by
  have := pyTrunc_intCast (K := K) (z : ℤ)
  simpa using this

end trunc

end SolidsPy
