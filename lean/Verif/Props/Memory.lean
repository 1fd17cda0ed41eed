import Verif.Model.Heap
import Verif.Props.Static

/-! # C163: which arrays a call changes -/

set_option linter.unusedSectionVars false

namespace SolidsPy
open Spec

section
variable {K : Type}

namespace Heap

theorem bind_run {α β : Type} (x : Act K α) (f : α → Act K β) (s : Store K) :
    (x >>= f) s = match x s with
      | (.ok a, s') => f a s'
      | (.error e, s') => (.error e, s') := rfl

theorem bind_run_ok {α β : Type} {x : Act K α} {f : α → Act K β} {s s' : Store K} {a : α} (h : x s = (.ok a, s')) :
    (x >>= f) s = f a s' := by
  rw [bind_run, h]

theorem bind_run_error {α β : Type} {x : Act K α} {f : α → Act K β} {s s' : Store K} {e : PyErr} (h : x s = (.error e, s')) :
    (x >>= f) s = (.error e, s') := by
  rw [bind_run, h]

end Heap

namespace Spec
open Heap

/-- Arrays that exist and meet `P` survive the computation unchanged, whether it returns or raises. -/
def Keeps (P : ℕ → Prop) {α : Type} (x : Act K α) : Prop :=
  ∀ s : Store K, s.next ≤ (x s).2.next ∧ ∀ r, r < s.next → P r → (x s).2.arr r = s.arr r

/-- The arrays of a dictionary exist and have the given contents. -/
structure InMemory (s : Store K) (d : Refs) (t : Gui.Data K) : Prop where
  live : d.nodes < s.next ∧ d.cons < s.next ∧ d.elements < s.next ∧ d.mats < s.next ∧ d.loads < s.next
  nodes : s.arr d.nodes = .float t.nodes
  cons : s.arr d.cons = .float t.cons
  elements : s.arr d.elements = .int t.elements
  mats : s.arr d.mats = .float t.mats
  loads : s.arr d.loads = .float t.loads

end Spec

namespace Heap

theorem keeps_pure {P : ℕ → Prop} {α : Type} (a : α) : Keeps P (pure a : Act K α) := fun _ => ⟨le_rfl, fun _ _ _ => rfl⟩

theorem keeps_lift {P : ℕ → Prop} {α : Type} (a : Py α) : Keeps P (lift a : Act K α) := fun _ => ⟨le_rfl, fun _ _ _ => rfl⟩

theorem keeps_bind {P : ℕ → Prop} {α β : Type} {x : Act K α} {f : α → Act K β} (hx : Keeps P x) (hf : ∀ a, Keeps P (f a)) :
    Keeps P (x >>= f) := by
  intro s
  obtain ⟨h1, h2⟩ := hx s
  rw [bind_run]
  rcases h : x s with ⟨a | a, s'⟩
  · rw [h] at h1 h2
    exact ⟨h1, h2⟩
  · rw [h] at h1 h2
    obtain ⟨h3, h4⟩ := hf a s'
    exact ⟨h1.trans h3, fun r hr hp => (h4 r (lt_of_lt_of_le hr h1) hp).trans (h2 r hr hp)⟩

theorem keeps_read {P : ℕ → Prop} (r : ℕ) : Keeps P (read r : Act K (Arr K)) := fun _ => ⟨le_rfl, fun _ _ _ => rfl⟩

theorem keeps_write {P : ℕ → Prop} {r : ℕ} (hr : ¬ P r) (a : Arr K) : Keeps P (write r a) := by
  refine fun s => ⟨le_rfl, fun r' _ hp => ?_⟩
  exact Function.update_of_ne (fun h : r' = r => hr (h ▸ hp)) _ _

theorem keeps_readFloat {P : ℕ → Prop} (r : ℕ) : Keeps P (readFloat r : Act K (Table K)) := by
  refine keeps_bind (keeps_read r) fun a => ?_
  cases a
  · exact keeps_pure _
  · exact keeps_lift _

theorem keeps_readInt {P : ℕ → Prop} (r : ℕ) : Keeps P (readInt r : Act K (List (List ℤ))) := by
  refine keeps_bind (keeps_read r) fun a => ?_
  cases a
  · exact keeps_lift _
  · exact keeps_pure _

theorem keeps_alloc {P : ℕ → Prop} (a : Arr K) : Keeps P (alloc a) := by
  refine fun s => ⟨Nat.le_succ _, fun r hr _ => ?_⟩
  exact Function.update_of_ne (by omega) _ _

/-- A new array may be written to. -/
theorem keeps_alloc_bind {P : ℕ → Prop} {α : Type} (a : Arr K) {f : ℕ → Act K α} (hf : ∀ r, Keeps (fun q => P q ∧ q ≠ r) (f r)) :
    Keeps P (alloc a >>= f) := by
  intro s
  obtain ⟨h3, h4⟩ := hf s.next ⟨Function.update s.arr s.next a, s.next + 1⟩
  refine ⟨(Nat.le_succ _).trans h3, fun r hr hp => ?_⟩
  refine (h4 r (by dsimp only; omega) ⟨hp, by omega⟩).trans ?_
  exact Function.update_of_ne (by omega) _ _

theorem keeps_getInt {P : ℕ → Prop} (r i j : ℕ) : Keeps P (getInt r i j : Act K ℤ) :=
  keeps_bind (keeps_readInt r) fun _ => keeps_bind (keeps_lift _) fun _ => keeps_lift _

theorem keeps_setInt {P : ℕ → Prop} {r : ℕ} (hr : ¬ P r) (i j : ℕ) (v : ℤ) : Keeps P (setInt r i j v : Act K Unit) :=
  keeps_bind (keeps_readInt r) fun _ => keeps_bind (keeps_lift _) fun _ => keeps_write hr _

theorem keeps_foldlM {P : ℕ → Prop} {α β : Type} {f : β → α → Act K β} (hf : ∀ b a, Keeps P (f b a)) :
    ∀ (l : List α) (b : β), Keeps P (l.foldlM f b)
  | [], b => keeps_pure b
  | a :: l, b => keeps_bind (hf b a) fun b' => keeps_foldlM hf l b'

section
variable [Field K] [LinearOrder K] [FloorRing K]

theorem keeps_numberCell {P : ℕ → Prop} {bc : ℕ} (hr : ¬ P bc) (i j neq : ℕ) : Keeps P (numberCell bc i j neq : Act K ℕ) := by
  refine keeps_bind (keeps_getInt bc i j) fun x => ?_
  split
  · exact keeps_bind (keeps_setInt hr _ _ _) fun _ => keeps_pure _
  · exact keeps_pure _

theorem keeps_eqcounter (cons : ℕ) (cols : Cols) (nd : ℕ) : Keeps (fun _ => True) (eqcounter cons cols nd : Act K (ℕ × ℕ)) :=
  keeps_bind (keeps_readFloat cons) fun _ => keeps_bind (keeps_alloc _) fun _ => keeps_alloc_bind _ fun r =>
    keeps_bind (keeps_foldlM (fun _ _ => keeps_foldlM (fun _ _ => keeps_numberCell (by simp) _ _ _) _ _) _ _) fun _ => keeps_pure _

theorem keeps_dme (cons : ℕ) (cols : Cols) (elements : ℕ) : Keeps (fun _ => True) (dme cons cols elements : Act K (ℕ × ℕ × ℕ)) :=
  keeps_bind (keeps_eqcounter _ _ _) fun _ => keeps_bind (keeps_readInt _) fun _ => keeps_bind (keeps_readInt _) fun _ =>
    keeps_bind (keeps_lift _) fun _ => keeps_bind (keeps_alloc _) fun _ => keeps_pure _

theorem readFloat_run {s : Store K} {r : ℕ} {t : Table K} (h : s.arr r = .float t) : readFloat r s = (.ok t, s) := by
  unfold readFloat
  rw [bind_run]
  unfold read
  dsimp only
  rw [h]
  rfl

theorem readInt_run {s : Store K} {r : ℕ} {t : List (List ℤ)} (h : s.arr r = .int t) : readInt r s = (.ok t, s) := by
  unfold readInt
  rw [bind_run]
  unfold read
  dsimp only
  rw [h]
  rfl

theorem alloc_run (a : Arr K) (s : Store K) : alloc a s = (.ok s.next, ⟨Function.update s.arr s.next a, s.next + 1⟩) := rfl

theorem lift_run {α : Type} (x : Py α) (s : Store K) : lift x s = (x, s) := rfl

/-- The memory with array `r` holding the integers `t`. -/
def Store.setArr (s : Store K) (r : ℕ) (t : List (List ℤ)) : Store K := ⟨Function.update s.arr r (.int t), s.next⟩

theorem setArr_arr (s : Store K) (r : ℕ) (t : List (List ℤ)) : (s.setArr r t).arr r = .int t := Function.update_self _ _ _

theorem setArr_setArr (s : Store K) (r : ℕ) (t t' : List (List ℤ)) : (s.setArr r t).setArr r t' = s.setArr r t' := by
  unfold Store.setArr
  simp

/-- One cell. -/
theorem numberCell_run (s : Store K) (r : ℕ) (pre : List (List ℤ)) (rpre : List ℤ) (x : ℤ) (xs : List ℤ) (rows : List (List ℤ)) (neq : ℕ) :
    numberCell r pre.length rpre.length neq (s.setArr r (pre ++ (rpre ++ x :: xs) :: rows)) =
      if x = 0 then (.ok (neq + 1), s.setArr r (pre ++ (rpre ++ (neq : ℤ) :: xs) :: rows))
      else (.ok neq, s.setArr r (pre ++ (rpre ++ x :: xs) :: rows)) := by
  have h1 : pyGet (pre ++ (rpre ++ x :: xs) :: rows) (pre.length : ℤ) = .ok (rpre ++ x :: xs) := pyGet_nat.2 (by simp)
  have h2 : pyGet (rpre ++ x :: xs) (rpre.length : ℤ) = .ok x := pyGet_nat.2 (by simp)
  have hg : getInt r pre.length rpre.length (s.setArr r (pre ++ (rpre ++ x :: xs) :: rows)) =
      (.ok x, s.setArr r (pre ++ (rpre ++ x :: xs) :: rows)) := by
    unfold getInt
    rw [bind_run_ok (readInt_run (setArr_arr _ _ _)), bind_run_ok (by rw [lift_run, h1]), lift_run, h2]
  unfold numberCell
  rw [bind_run_ok hg]
  by_cases hx : x = 0
  · rw [if_pos hx, if_pos hx]
    have hs : setInt r pre.length rpre.length (neq : ℤ) (s.setArr r (pre ++ (rpre ++ x :: xs) :: rows)) =
        (.ok (), s.setArr r (pre ++ (rpre ++ (neq : ℤ) :: xs) :: rows)) := by
      unfold setInt
      rw [bind_run_ok (readInt_run (setArr_arr _ _ _)), bind_run_ok (by rw [lift_run, h1])]
      unfold write
      rw [← setArr_setArr s r (pre ++ (rpre ++ x :: xs) :: rows)]
      simp [Store.setArr]
    rw [bind_run_ok hs]
    rfl
  · rw [if_neg hx, if_neg hx]
    rfl

/-- A missing cell. -/
theorem numberCell_missing (s : Store K) (r : ℕ) (pre : List (List ℤ)) (row : List ℤ) (rows : List (List ℤ)) (neq : ℕ) :
    (numberCell r pre.length row.length neq (s.setArr r (pre ++ row :: rows))).1 = .error .indexError := by
  have h1 : pyGet (pre ++ row :: rows) (pre.length : ℤ) = .ok row := pyGet_nat.2 (by simp)
  have h2 : pyGet row (row.length : ℤ) = .error .indexError := by
    rcases h : pyGet row (row.length : ℤ) with e | y
    · rw [pyGet_error h]
    · have := pyGet_nat.1 h
      simp at this
  have hg : getInt r pre.length row.length (s.setArr r (pre ++ row :: rows)) =
      (.error .indexError, s.setArr r (pre ++ row :: rows)) := by
    unfold getInt
    rw [bind_run_ok (readInt_run (setArr_arr _ _ _)), bind_run_ok (by rw [lift_run, h1]), lift_run, h2]
  unfold numberCell
  rw [bind_run_error hg]

/-- One row. -/
theorem numberRow_run (s : Store K) (r : ℕ) (pre rows : List (List ℤ)) : ∀ (nd : ℕ) (rpre xs : List ℤ) (neq : ℕ),
    (∀ ys neq', Assem.numberRow nd xs neq = .ok (ys, neq') →
      (List.range' rpre.length nd).foldlM (fun neq j => numberCell r pre.length j neq) neq (s.setArr r (pre ++ (rpre ++ xs) :: rows)) =
        (.ok neq', s.setArr r (pre ++ (rpre ++ ys) :: rows))) ∧
    ∀ e, Assem.numberRow nd xs neq = .error e →
      ((List.range' rpre.length nd).foldlM (fun neq j => numberCell r pre.length j neq) neq (s.setArr r (pre ++ (rpre ++ xs) :: rows))).1 =
        .error e
  | 0, rpre, xs, neq => by
    constructor
    · intro ys neq' h
      simp only [Assem.numberRow, Except.ok.injEq, Prod.mk.injEq] at h
      obtain ⟨rfl, rfl⟩ := h
      rfl
    · intro e h
      simp [Assem.numberRow] at h
  | nd + 1, rpre, [], neq => by
    constructor
    · intro ys neq' h
      simp [Assem.numberRow] at h
    · intro e h
      simp only [Assem.numberRow, Except.error.injEq] at h
      subst h
      rw [List.range'_succ, List.foldlM_cons, List.append_nil]
      have := numberCell_missing s r pre rpre rows neq
      rcases hc : numberCell r pre.length rpre.length neq (s.setArr r (pre ++ rpre :: rows)) with ⟨a, s'⟩
      rw [hc] at this
      dsimp only at this
      subst this
      rw [bind_run_error hc]
  | nd + 1, rpre, x :: xs, neq => by
    have hc := numberCell_run s r pre rpre x xs rows neq
    have key : ∀ (y : ℤ) (m : ℕ), numberCell r pre.length rpre.length neq (s.setArr r (pre ++ (rpre ++ x :: xs) :: rows)) =
        (.ok m, s.setArr r (pre ++ (rpre ++ y :: xs) :: rows)) →
        (∀ ys neq', Assem.numberRow nd xs m = .ok (ys, neq') →
          (List.range' rpre.length (nd + 1)).foldlM (fun neq j => numberCell r pre.length j neq) neq
            (s.setArr r (pre ++ (rpre ++ x :: xs) :: rows)) = (.ok neq', s.setArr r (pre ++ (rpre ++ y :: ys) :: rows))) ∧
        ∀ e, Assem.numberRow nd xs m = .error e →
          ((List.range' rpre.length (nd + 1)).foldlM (fun neq j => numberCell r pre.length j neq) neq
            (s.setArr r (pre ++ (rpre ++ x :: xs) :: rows))).1 = .error e := by
      intro y m h
      obtain ⟨i1, i2⟩ := numberRow_run s r pre rows nd (rpre ++ [y]) xs m
      rw [List.range'_succ, List.foldlM_cons, bind_run_ok h]
      simp only [List.length_append, List.length_singleton, List.append_assoc, List.singleton_append] at i1 i2
      exact ⟨i1, i2⟩
    by_cases hx : x = 0
    · rw [if_pos hx] at hc
      obtain ⟨k1, k2⟩ := key _ _ hc
      subst hx
      simp only [Assem.numberRow, if_true]
      rcases hr : Assem.numberRow nd xs (neq + 1) with e | ⟨ys, m⟩
      · exact ⟨fun _ _ h => (by cases h), fun e' h => by cases h; exact k2 _ hr⟩
      · refine ⟨fun _ _ h => ?_, fun e' h => by cases h⟩
        cases h
        exact k1 _ _ hr
    · rw [if_neg hx] at hc
      obtain ⟨k1, k2⟩ := key _ _ hc
      simp only [Assem.numberRow, if_neg hx]
      rcases hr : Assem.numberRow nd xs neq with e | ⟨ys, m⟩
      · exact ⟨fun _ _ h => (by cases h), fun e' h => by cases h; exact k2 _ hr⟩
      · refine ⟨fun _ _ h => ?_, fun e' h => by cases h⟩
        cases h
        exact k1 _ _ hr

/-- All rows. -/
theorem numberRows_run (s : Store K) (r nd : ℕ) : ∀ (rows pre : List (List ℤ)) (neq : ℕ),
    (∀ out neq', Assem.numberRows nd rows neq = .ok (out, neq') →
      (List.range' pre.length rows.length).foldlM (fun neq i => (List.range nd).foldlM (fun neq j => numberCell r i j neq) neq) neq
        (s.setArr r (pre ++ rows)) = (.ok neq', s.setArr r (pre ++ out))) ∧
    ∀ e, Assem.numberRows nd rows neq = .error e →
      ((List.range' pre.length rows.length).foldlM (fun neq i => (List.range nd).foldlM (fun neq j => numberCell r i j neq) neq) neq
        (s.setArr r (pre ++ rows))).1 = .error e
  | [], pre, neq => by
    constructor
    · intro ys neq' h
      simp only [Assem.numberRows, Except.ok.injEq, Prod.mk.injEq] at h
      obtain ⟨rfl, rfl⟩ := h
      rfl
    · intro e h
      simp [Assem.numberRows] at h
  | row :: rows, pre, neq => by
    obtain ⟨i1, i2⟩ := numberRow_run s r pre rows nd [] row neq
    simp only [List.length_nil, List.nil_append, ← List.range_eq_range'] at i1 i2
    simp only [Assem.numberRows, List.length_cons, List.range'_succ, List.foldlM_cons]
    rcases hr : Assem.numberRow nd row neq with e | ⟨ys, m⟩
    · refine ⟨fun _ _ h => (by cases h), fun e' h => ?_⟩
      cases h
      have := i2 _ hr
      rcases hc : (List.range nd).foldlM (fun neq j => numberCell r pre.length j neq) neq (s.setArr r (pre ++ row :: rows)) with ⟨a, s'⟩
      rw [hc] at this
      dsimp only at this
      subst this
      rw [bind_run_error hc]
    · rw [bind_run_ok (i1 _ _ hr)]
      obtain ⟨j1, j2⟩ := numberRows_run s r nd rows (pre ++ [ys]) m
      simp only [List.length_append, List.length_singleton, List.append_assoc, List.singleton_append] at j1 j2
      rcases hrs : Assem.numberRows nd rows m with e | ⟨out, m'⟩
      · exact ⟨fun _ _ h => (by simp only [ok_bind, hrs] at h; cases h), fun e' h => by
          simp only [ok_bind, hrs] at h; cases h; exact j2 _ hrs⟩
      · refine ⟨fun _ _ h => ?_, fun e' h => by simp only [ok_bind, hrs] at h; cases h⟩
        simp only [ok_bind, hrs] at h
        cases h
        exact j1 _ _ hrs

theorem cut_all (t : Table K) : t.map Cols.all.cut = t := by
  have : (Cols.all.cut : List K → List K) = id := rfl
  rw [this, List.map_id]

/-- `eqcounter` in memory computes what `Assem.eqcounter` does. -/
theorem eqcounter_run {s : Store K} {cons : ℕ} {cols : Cols} {nd : ℕ} {t : Table K} (h : s.arr cons = .float t) :
    (∀ neq bc, Assem.eqcounter (t.map cols.cut) nd = .ok (neq, bc) →
      ∃ s', eqcounter cons cols nd s = (.ok (neq, s.next + 1), s') ∧ s'.arr (s.next + 1) = .int bc ∧ s'.next = s.next + 2) ∧
    ∀ e, Assem.eqcounter (t.map cols.cut) nd = .error e → (eqcounter cons cols nd s).1 = .error e := by
  set s1 : Store K := ⟨Function.update s.arr s.next (.float (t.map cols.cut)), s.next + 1⟩ with hs1
  set bc0 : List (List ℤ) := (t.map cols.cut).map (List.map pyTrunc) with hbc0
  have hlen : bc0.length = t.length := by simp [hbc0]
  set s2 : Store K := ⟨Function.update s1.arr s1.next (.int bc0), s1.next + 1⟩ with hs2
  have hs2' : s2.setArr (s.next + 1) bc0 = s2 := by
    unfold Store.setArr
    rw [hs2]
    simp [hs1]
  obtain ⟨i1, i2⟩ := numberRows_run s2 (s.next + 1) nd bc0 [] 0
  rw [List.nil_append, List.length_nil, hlen, ← List.range_eq_range', hs2'] at i1 i2
  have hrun : ∀ a s', (List.range t.length).foldlM
      (fun neq i => (List.range nd).foldlM (fun neq j => numberCell (s.next + 1) i j neq) neq) 0 s2 = (a, s') →
      eqcounter cons cols nd s = match a with
        | .ok neq => (.ok (neq, s.next + 1), s')
        | .error e => (.error e, s') := by
    intro a s' hl
    unfold eqcounter
    rw [bind_run_ok (readFloat_run h), bind_run_ok (alloc_run _ _), bind_run_ok (alloc_run _ _), bind_run, hl]
    cases a <;> rfl
  have hpure : Assem.eqcounter (t.map cols.cut) nd = Assem.numberRows nd bc0 0 >>= fun x => pure (x.2, x.1) := rfl
  rw [hpure]
  rcases hr : Assem.numberRows nd bc0 0 with e | ⟨out, m⟩
  · refine ⟨fun _ _ h => (by cases h), fun e' h => ?_⟩
    cases h
    have := i2 _ hr
    rcases hc : (List.range t.length).foldlM
      (fun neq i => (List.range nd).foldlM (fun neq j => numberCell (s.next + 1) i j neq) neq) 0 s2 with ⟨a, s'⟩
    rw [hc] at this
    dsimp only at this
    subst this
    rw [hrun _ _ hc]
  · refine ⟨fun _ _ h => ?_, fun e' h => (by cases h)⟩
    cases h
    refine ⟨_, hrun _ _ (i1 _ _ hr), setArr_arr _ _ _, ?_⟩
    rfl

theorem dme_run {s : Store K} {cons elements : ℕ} {cols : Cols} {t : Table K} {els : List (List ℤ)} (h : s.arr cons = .float t)
    (he : elements < s.next) (hel : s.arr elements = .int els) :
    (∀ op bc neq, Assem.dme (t.map cols.cut) els = .ok (op, bc, neq) →
      ∃ s' rop rbc, dme cons cols elements s = (.ok (rop, rbc, neq), s') ∧ s'.arr rop = .int op ∧ s'.arr rbc = .int bc) ∧
    ∀ e, Assem.dme (t.map cols.cut) els = .error e → (dme cons cols elements s).1 = .error e := by
  obtain ⟨i1, i2⟩ := eqcounter_run (cols := cols) (nd := 2) h
  have hpure : Assem.dme (t.map cols.cut) els = Assem.eqcounter (t.map cols.cut) 2 >>= fun x =>
      els.mapM (Assem.dmeRow x.2 18 none) >>= fun op => pure (op, x.2, x.1) := rfl
  rw [hpure]
  rcases hr : Assem.eqcounter (t.map cols.cut) 2 with e | ⟨neq, bc⟩
  · refine ⟨fun _ _ _ h => (by cases h), fun e' h => ?_⟩
    cases h
    have := i2 _ hr
    unfold dme
    rcases hc : eqcounter cons cols 2 s with ⟨a, s'⟩
    rw [hc] at this
    dsimp only at this
    subst this
    rw [bind_run_error hc]
  · obtain ⟨s', h1, h2, h3⟩ := i1 _ _ hr
    have hel' : s'.arr elements = .int els := by
      have := (keeps_eqcounter cons cols 2 s).2 elements he trivial
      rw [h1] at this
      rw [this, hel]
    rw [ok_bind]
    dsimp only
    rcases hm : els.mapM (Assem.dmeRow bc 18 none) with e | op
    · refine ⟨fun _ _ _ h => (by cases h), fun e' h => ?_⟩
      cases h
      unfold dme
      rw [bind_run_ok h1]
      dsimp only
      rw [bind_run_ok (readInt_run h2), bind_run_ok (readInt_run hel'), bind_run_error (by rw [lift_run, hm])]
    · refine ⟨fun _ _ _ h => ?_, fun e' h => (by cases h)⟩
      cases h
      refine ⟨⟨Function.update s'.arr s'.next (.int op), s'.next + 1⟩, s'.next, s.next + 1, ?_, Function.update_self _ _ _, ?_⟩
      · unfold dme
        rw [bind_run_ok h1]
        dsimp only
        rw [bind_run_ok (readInt_run h2), bind_run_ok (readInt_run hel'), bind_run_ok (by rw [lift_run, hm])]
        rfl
      · dsimp only
        rw [Function.update_of_ne (by omega)]
        exact h2

variable {sq : K → K} {sp de : Sol.Solver K}

theorem keeps_solidsAuto (d : Refs) (plot : Bool) : Keeps (fun _ => True) (solidsAuto sq sp de d plot) :=
  keeps_bind (keeps_dme _ _ _) fun _ => keeps_bind (keeps_readInt _) fun _ => keeps_bind (keeps_readFloat _) fun _ =>
    keeps_bind (keeps_readFloat _) fun _ => keeps_bind (keeps_readInt _) fun _ => keeps_bind (keeps_lift _) fun _ =>
    keeps_bind (keeps_readFloat _) fun _ => keeps_bind (keeps_readInt _) fun _ => keeps_bind (keeps_lift _) fun _ =>
    keeps_bind (keeps_lift _) fun _ => keeps_bind (keeps_lift _) fun _ => keeps_bind (keeps_lift _) fun _ =>
    keeps_bind (keeps_alloc _) fun _ => keeps_bind (keeps_lift _) fun _ => keeps_pure _

theorem keeps_solidsGUI (nodes mats elements loads : ℕ) (plot : Bool) :
    Keeps (fun _ => True) (solidsGUI sq sp de nodes mats elements loads plot) :=
  keeps_bind (keeps_dme _ _ _) fun _ => keeps_bind (keeps_readInt _) fun _ => keeps_bind (keeps_readFloat _) fun _ =>
    keeps_bind (keeps_readFloat _) fun _ => keeps_bind (keeps_readInt _) fun _ => keeps_bind (keeps_lift _) fun _ =>
    keeps_bind (keeps_readFloat _) fun _ => keeps_bind (keeps_readInt _) fun _ => keeps_bind (keeps_lift _) fun _ =>
    keeps_bind (keeps_lift _) fun _ => keeps_bind (keeps_lift _) fun _ => keeps_bind (keeps_lift _) fun _ =>
    keeps_bind (keeps_alloc _) fun _ => keeps_bind (keeps_lift _) fun _ => keeps_pure _

/-- The part of a run after the numbering. -/
theorem tail_run {s : Store K} {nodes mats elements loads op bc neq : ℕ} {plot : Bool} {n0 n1 m0 l0 : Table K} {e0 op0 bc0 : List (List ℤ)}
    {c : Cols} (hn1 : n1 = n0.map c.cut)
    (h1 : s.arr nodes = .float n0) (h2 : s.arr mats = .float m0) (h3 : s.arr elements = .int e0) (h4 : s.arr loads = .float l0)
    (h5 : s.arr op = .int op0) (h6 : s.arr bc = .int bc0) {y : Py (Gui.Result K)}
    (hy : y = do
      let (stiff, _) ← Assem.assembler (Uel.eleFun sq) e0 m0 n1 neq op0
      let rhs ← Assem.loadasem l0 bc0 neq
      let disp ← Sol.staticSol sp de .csr stiff rhs
      let ok ← Gui.balanced stiff disp rhs
      let full ← Post.completeDisp bc0 n0.length disp
      let plots ← if plot then Post.fieldsPlot e0 n0.length false false else pure []
      pure ⟨full, neq, !ok, plots⟩) {x : Py (Gui.Result K × ℕ) × Store K}
    (hx : x = (do
      let els ← readInt elements
      let matsT ← readFloat mats
      let nodesT ← readFloat nodes
      let opT ← readInt op
      let (stiff, _) ← lift (Assem.assembler (Uel.eleFun sq) els matsT (nodesT.map c.cut) neq opT)
      let loadsT ← readFloat loads
      let bcT ← readInt bc
      let rhs ← lift (Assem.loadasem loadsT bcT neq)
      let disp ← lift (Sol.staticSol sp de .csr stiff rhs)
      let ok ← lift (Gui.balanced stiff disp rhs)
      let full ← lift (Post.completeDisp bcT nodesT.length disp)
      let out ← alloc (.float full)
      let plots ← lift (if plot then Post.fieldsPlot els nodesT.length false false else pure [])
      pure (⟨full, neq, !ok, plots⟩, out) : Act K (Gui.Result K × ℕ)) s) :
    (∀ e, y = .error e → x.1 = .error e) ∧
    ∀ res, y = .ok res → ∃ out s', x = (.ok (res, out), s') ∧ s'.arr out = .float res.disp ∧ s.next ≤ out ∧ out < s'.next := by
  rw [bind_run_ok (readInt_run h3), bind_run_ok (readFloat_run h2), bind_run_ok (readFloat_run h1), bind_run_ok (readInt_run h5), ← hn1] at hx
  rcases a1 : Assem.assembler (Uel.eleFun sq) e0 m0 n1 neq op0 with e | ⟨stiff, mass⟩
  · rw [bind_run_error (by rw [lift_run, a1])] at hx
    rw [a1] at hy
    subst hy hx
    exact ⟨fun _ h => (by cases h; rfl), fun _ h => (by cases h)⟩
  rw [bind_run_ok (by rw [lift_run, a1])] at hx
  rw [a1, ok_bind] at hy
  dsimp only at hx hy
  rw [bind_run_ok (readFloat_run h4), bind_run_ok (readInt_run h6)] at hx
  rcases a2 : Assem.loadasem l0 bc0 neq with e | rhs
  · rw [bind_run_error (by rw [lift_run, a2])] at hx
    rw [a2] at hy
    subst hy hx
    exact ⟨fun _ h => (by cases h; rfl), fun _ h => (by cases h)⟩
  rw [bind_run_ok (by rw [lift_run, a2])] at hx
  rw [a2, ok_bind] at hy
  rcases a3 : Sol.staticSol sp de .csr stiff rhs with e | disp
  · rw [bind_run_error (by rw [lift_run, a3])] at hx
    rw [a3] at hy
    subst hy hx
    exact ⟨fun _ h => (by cases h; rfl), fun _ h => (by cases h)⟩
  rw [bind_run_ok (by rw [lift_run, a3])] at hx
  rw [a3, ok_bind] at hy
  rcases a4 : Gui.balanced stiff disp rhs with e | ok
  · rw [bind_run_error (by rw [lift_run, a4])] at hx
    rw [a4] at hy
    subst hy hx
    exact ⟨fun _ h => (by cases h; rfl), fun _ h => (by cases h)⟩
  rw [bind_run_ok (by rw [lift_run, a4])] at hx
  rw [a4, ok_bind] at hy
  rcases a5 : Post.completeDisp bc0 n0.length disp with e | full
  · rw [bind_run_error (by rw [lift_run, a5])] at hx
    rw [a5] at hy
    subst hy hx
    exact ⟨fun _ h => (by cases h; rfl), fun _ h => (by cases h)⟩
  rw [bind_run_ok (by rw [lift_run, a5]), bind_run_ok (alloc_run _ _)] at hx
  rw [a5, ok_bind] at hy
  replace hy : y = (if plot then Post.fieldsPlot e0 n0.length false false else pure []) >>= fun plots =>
      pure ⟨full, neq, !ok, plots⟩ := by
    rw [hy]
    cases plot <;> rfl
  rcases a6 : (if plot then Post.fieldsPlot e0 n0.length false false else pure []) with e | plots
  · rw [bind_run_error (by rw [lift_run, a6])] at hx
    rw [a6] at hy
    subst hy hx
    exact ⟨fun _ h => (by cases h; rfl), fun _ h => (by cases h)⟩
  rw [bind_run_ok (by rw [lift_run, a6])] at hx
  rw [a6, ok_bind] at hy
  subst hy hx
  refine ⟨fun _ h => (by cases h), fun res h => ?_⟩
  cases h
  exact ⟨s.next, _, rfl, Function.update_self _ _ _, le_rfl, Nat.lt_succ_self _⟩

/-- C163.  `solids_auto` in memory computes what it does on the contents of the arrays of its dictionary, puts the displacements into a new
array, and raises the same exceptions. -/
theorem C163_auto {s : Store K} {d : Refs} {t : Gui.Data K} {plot : Bool} (h : InMemory s d t) :
    (∀ e, Gui.solidsAuto sq sp de t plot = .error e → (solidsAuto sq sp de d plot s).1 = .error e) ∧
    ∀ res, Gui.solidsAuto sq sp de t plot = .ok res →
      ∃ out s', solidsAuto sq sp de d plot s = (.ok (res, out), s') ∧ s'.arr out = .float res.disp ∧ s.next ≤ out ∧ out < s'.next := by
  obtain ⟨i1, i2⟩ := dme_run (cols := .all) h.cons h.live.2.2.1 h.elements
  rw [cut_all] at i1 i2
  rcases hd : Assem.dme t.cons t.elements with e | ⟨op, bc, neq⟩
  · have hp : Gui.solidsAuto sq sp de t plot = .error e := by
      unfold Gui.solidsAuto
      rw [hd]
      rfl
    rw [hp]
    refine ⟨fun _ h => ?_, fun _ h => (by cases h)⟩
    cases h
    have := i2 _ hd
    unfold solidsAuto
    rcases hc : dme d.cons .all d.elements s with ⟨a, s'⟩
    rw [hc] at this
    dsimp only at this
    subst this
    rw [bind_run_error hc]
  · obtain ⟨s1, rop, rbc, h1, h2, h3⟩ := i1 _ _ _ hd
    obtain ⟨k1, k2⟩ := keeps_dme d.cons .all d.elements s
    rw [h1] at k1 k2
    dsimp only at k1 k2
    obtain ⟨l1, l2, l3, l4, l5⟩ := h.live
    obtain ⟨r1, r2⟩ := tail_run (sq := sq) (sp := sp) (de := de) (plot := plot) (neq := neq) (c := .all)
      (y := Gui.solidsAuto sq sp de t plot) (x := solidsAuto sq sp de d plot s) (cut_all t.nodes).symm
      ((k2 _ l1 trivial).trans h.nodes) ((k2 _ l4 trivial).trans h.mats) ((k2 _ l3 trivial).trans h.elements)
      ((k2 _ l5 trivial).trans h.loads) h2 h3 (by
        unfold Gui.solidsAuto
        rw [hd, ok_bind]) (by
        unfold solidsAuto
        rw [bind_run_ok h1]
        simp only [cut_all])
    refine ⟨r1, fun res hr => ?_⟩
    obtain ⟨out, s', q1, q2, q3, q4⟩ := r2 res hr
    exact ⟨out, s', q1, q2, k1.trans q3, q4⟩

/-- C163.  The same for `solids_GUI`, whose constraints are a view of the array of nodes. -/
theorem C163_gui {s : Store K} {nodes mats elements loads : ℕ} {n0 m0 l0 : Table K} {e0 : List (List ℤ)} {plot : Bool}
    (hel : elements < s.next) (hlive : nodes < s.next ∧ mats < s.next ∧ loads < s.next) (h1 : s.arr nodes = .float n0)
    (h2 : s.arr mats = .float m0) (h3 : s.arr elements = .int e0) (h4 : s.arr loads = .float l0) :
    (∀ e, Gui.solidsGUI sq sp de n0 m0 e0 l0 plot = .error e → (solidsGUI sq sp de nodes mats elements loads plot s).1 = .error e) ∧
    ∀ res, Gui.solidsGUI sq sp de n0 m0 e0 l0 plot = .ok res →
      ∃ out s', solidsGUI sq sp de nodes mats elements loads plot s = (.ok (res, out), s') ∧ s'.arr out = .float res.disp ∧
        s.next ≤ out ∧ out < s'.next := by
  obtain ⟨i1, i2⟩ := dme_run (cols := .last 2) h1 hel h3
  have hcut : (Cols.last 2).cut = fun r : List K => r.drop (r.length - 2) := rfl
  have hcut' : (Cols.first 3).cut = List.take (α := K) 3 := rfl
  rcases hd : Assem.dme (n0.map (Cols.last 2).cut) e0 with e | ⟨op, bc, neq⟩
  · have hp : Gui.solidsGUI sq sp de n0 m0 e0 l0 plot = .error e := by
      unfold Gui.solidsGUI
      rw [hcut] at hd
      rw [hd]
      rfl
    rw [hp]
    refine ⟨fun _ h => ?_, fun _ h => (by cases h)⟩
    cases h
    have := i2 _ hd
    unfold solidsGUI
    rcases hc : dme nodes (.last 2) elements s with ⟨a, s'⟩
    rw [hc] at this
    dsimp only at this
    subst this
    rw [bind_run_error hc]
  · obtain ⟨s1, rop, rbc, g1, g2, g3⟩ := i1 _ _ _ hd
    obtain ⟨k1, k2⟩ := keeps_dme nodes (.last 2) elements s
    rw [g1] at k1 k2
    dsimp only at k1 k2
    obtain ⟨l1, l2, l3⟩ := hlive
    obtain ⟨r1, r2⟩ := tail_run (sq := sq) (sp := sp) (de := de) (plot := plot) (neq := neq) (c := .first 3)
      (y := Gui.solidsGUI sq sp de n0 m0 e0 l0 plot) (x := solidsGUI sq sp de nodes mats elements loads plot s) rfl
      ((k2 _ l1 trivial).trans h1) ((k2 _ l2 trivial).trans h2) ((k2 _ hel trivial).trans h3)
      ((k2 _ l3 trivial).trans h4) g2 g3 (by
        unfold Gui.solidsGUI
        rw [hcut] at hd
        rw [hd, ok_bind, hcut']) (by
        unfold solidsGUI
        rw [bind_run_ok g1])
    refine ⟨r1, fun res hr => ?_⟩
    obtain ⟨out, s', q1, q2, q3, q4⟩ := r2 res hr
    exact ⟨out, s', q1, q2, k1.trans q3, q4⟩

/-- C163.  Neither changes any array that existed before, not even when it raises. -/
theorem C163_inputs_kept (d : Refs) (nodes mats elements loads : ℕ) (plot : Bool) :
    Keeps (fun _ => True) (solidsAuto sq sp de d plot) ∧ Keeps (fun _ => True) (solidsGUI sq sp de nodes mats elements loads plot) :=
  ⟨keeps_solidsAuto d plot, keeps_solidsGUI nodes mats elements loads plot⟩

theorem keeps_boundaryConditions (setList : List ℤ → List ℤ) (cells : String → Option (List (List ℤ)))
    (cellData : String → Option (List ℤ)) (phyLin : ℤ) (nodes : ℕ) (bcX bcY : K) :
    Keeps (fun r => r ≠ nodes) (boundaryConditions setList cells cellData phyLin nodes bcX bcY) :=
  keeps_bind (keeps_lift _) fun _ => keeps_bind (keeps_readFloat _) fun _ => keeps_bind (keeps_lift _) fun _ =>
    keeps_bind (keeps_write (by simp) _) fun _ => keeps_bind (keeps_readFloat _) fun _ => keeps_bind (keeps_lift _) fun _ =>
    keeps_bind (keeps_write (by simp) _) fun _ => keeps_pure _

/-- C163.  `boundary_conditions` writes its result into the array it was given, returns that very array, and changes no other. -/
theorem C163_conditions {setList : List ℤ → List ℤ} {cells : String → Option (List (List ℤ))} {cellData : String → Option (List ℤ)}
    {phyLin : ℤ} {s : Store K} {nodes : ℕ} {t : Table K} {bcX bcY : K} (h : s.arr nodes = .float t) :
    (∀ e, Pre.boundaryConditions setList cells cellData phyLin t bcX bcY = .error e →
      (boundaryConditions setList cells cellData phyLin nodes bcX bcY s).1 = .error e) ∧
    ∀ t', Pre.boundaryConditions setList cells cellData phyLin t bcX bcY = .ok t' →
      ∃ s', boundaryConditions setList cells cellData phyLin nodes bcX bcY s = (.ok nodes, s') ∧ s'.arr nodes = .float t' ∧
        s'.next = s.next ∧ ∀ r, r ≠ nodes → s'.arr r = s.arr r := by
  rcases a1 : Pre.taggedNodes cells cellData phyLin with e | flat
  · have hp : Pre.boundaryConditions setList cells cellData phyLin t bcX bcY = .error e := by
      unfold Pre.boundaryConditions
      rw [a1]
      rfl
    rw [hp]
    refine ⟨fun _ h => ?_, fun _ h => (by cases h)⟩
    cases h
    unfold boundaryConditions
    rw [bind_run_error (by rw [lift_run, a1])]
  rcases a2 : Pre.setCol t (setList flat) 3 bcX with e | t1
  · have hp : Pre.boundaryConditions setList cells cellData phyLin t bcX bcY = .error e := by
      unfold Pre.boundaryConditions
      rw [a1, ok_bind]
      dsimp only
      rw [a2]
      rfl
    rw [hp]
    refine ⟨fun _ h => ?_, fun _ h => (by cases h)⟩
    cases h
    unfold boundaryConditions
    rw [bind_run_ok (by rw [lift_run, a1])]
    rw [bind_run_ok (readFloat_run ‹_›), bind_run_error (by rw [lift_run, a2])]
  have hp : Pre.boundaryConditions setList cells cellData phyLin t bcX bcY = Pre.setCol t1 (setList flat) 4 bcY := by
    unfold Pre.boundaryConditions
    rw [a1, ok_bind]
    dsimp only
    rw [a2, ok_bind]
  rw [hp]
  have hw : ∀ (a : Arr K) (s : Store K), write nodes a s = (.ok (), ⟨Function.update s.arr nodes a, s.next⟩) := fun _ _ => rfl
  rcases a3 : Pre.setCol t1 (setList flat) 4 bcY with e | t2
  · refine ⟨fun _ h => ?_, fun _ h => (by cases h)⟩
    cases h
    unfold boundaryConditions
    rw [bind_run_ok (by rw [lift_run, a1])]
    rw [bind_run_ok (readFloat_run ‹_›), bind_run_ok (by rw [lift_run, a2]), bind_run_ok (hw _ _),
      bind_run_ok (readFloat_run (Function.update_self _ _ _)), bind_run_error (by rw [lift_run, a3])]
  · refine ⟨fun _ h => (by cases h), fun t' h' => ?_⟩
    cases h'
    refine ⟨⟨Function.update (Function.update s.arr nodes (.float t1)) nodes (.float t2), s.next⟩, ?_, Function.update_self _ _ _, rfl,
      fun r hr => ?_⟩
    · unfold boundaryConditions
      rw [bind_run_ok (by rw [lift_run, a1])]
      rw [bind_run_ok (readFloat_run h), bind_run_ok (by rw [lift_run, a2]), bind_run_ok (hw _ _),
        bind_run_ok (readFloat_run (Function.update_self _ _ _)), bind_run_ok (by rw [lift_run, a3]), bind_run_ok (hw _ _)]
      rfl
    · dsimp only
      rw [Function.update_of_ne hr, Function.update_of_ne hr]

/-- A call of the library. -/
inductive Call (K : Type)
  | auto (sq : K → K) (spsolve solve : Sol.Solver K) (d : Refs) (plot : Bool)
  | gui (sq : K → K) (spsolve solve : Sol.Solver K) (nodes mats elements loads : ℕ) (plot : Bool)
  | conditions (setList : List ℤ → List ℤ) (cells : String → Option (List (List ℤ))) (cellData : String → Option (List ℤ))
      (phyLin : ℤ) (nodes : ℕ) (bcX bcY : K)
  | make (a : Arr K)

/-- The memory after a call, returned from or raised. -/
def Call.after : Call K → Store K → Store K
  | .auto sq sp de d plot, s => (solidsAuto sq sp de d plot s).2
  | .gui sq sp de nodes mats elements loads plot, s => (solidsGUI sq sp de nodes mats elements loads plot s).2
  | .conditions f c cd p nodes bx bY, s => (boundaryConditions f c cd p nodes bx bY s).2
  | .make a, s => (alloc a s).2

/-- The call gets the array to write boundary conditions into. -/
def Call.conditionsOn (r : ℕ) : Call K → Prop
  | .conditions _ _ _ _ nodes _ _ => nodes = r
  | _ => False

theorem after_keeps (c : Call K) (s : Store K) :
    s.next ≤ (c.after s).next ∧ ∀ r, r < s.next → ¬ c.conditionsOn r → (c.after s).arr r = s.arr r := by
  cases c with
  | auto sq sp de d plot =>
    obtain ⟨h1, h2⟩ := keeps_solidsAuto (sq := sq) (sp := sp) (de := de) d plot s
    exact ⟨h1, fun r hr _ => h2 r hr trivial⟩
  | gui sq sp de nodes mats elements loads plot =>
    obtain ⟨h1, h2⟩ := keeps_solidsGUI (sq := sq) (sp := sp) (de := de) nodes mats elements loads plot s
    exact ⟨h1, fun r hr _ => h2 r hr trivial⟩
  | conditions f c cd p nodes bx bY =>
    obtain ⟨h1, h2⟩ := keeps_boundaryConditions f c cd p nodes bx bY s
    exact ⟨h1, fun r hr hc => h2 r hr fun h => hc h.symm⟩
  | make a =>
    obtain ⟨h1, h2⟩ := keeps_alloc (P := fun _ => True) a s
    exact ⟨h1, fun r hr _ => h2 r hr trivial⟩

/-- C163.  Through any session an array that is not handed to `boundary_conditions` keeps its contents. -/
theorem C163_session (cs : List (Call K)) (s : Store K) {r : ℕ} (hr : r < s.next) (hc : ∀ c ∈ cs, ¬ c.conditionsOn r) :
    (cs.foldl (fun s c => c.after s) s).arr r = s.arr r := by
  induction cs generalizing s with
  | nil => rfl
  | cons c cs ih =>
    obtain ⟨h1, h2⟩ := after_keeps c s
    rw [List.foldl_cons, ih _ (lt_of_lt_of_le hr h1) fun c hc' => hc c (List.mem_cons_of_mem _ hc')]
    exact h2 r hr (hc c (List.mem_cons_self ..))

theorem session_next (cs : List (Call K)) (s : Store K) : s.next ≤ (cs.foldl (fun s c => c.after s) s).next := by
  induction cs generalizing s with
  | nil => exact le_rfl
  | cons c cs ih => exact (after_keeps c s).1.trans (ih _)

/-- C163.  An analysis gives the same result before and after any session that does not write boundary conditions into its arrays; in
particular when it is simply repeated. -/
theorem C163_repeatable (cs : List (Call K)) {s : Store K} {d : Refs} {t : Gui.Data K} (h : InMemory s d t)
    (hc : ∀ c ∈ cs, ∀ r, (r = d.nodes ∨ r = d.cons ∨ r = d.elements ∨ r = d.mats ∨ r = d.loads) → ¬ c.conditionsOn r) (plot : Bool) :
    ((solidsAuto sq sp de d plot (cs.foldl (fun s c => c.after s) s)).1.map Prod.fst) =
      (solidsAuto sq sp de d plot s).1.map Prod.fst := by
  have hl := session_next cs s
  obtain ⟨l1, l2, l3, l4, l5⟩ := h.live
  have k := fun r hr hm => C163_session cs s (r := r) hr fun c hcc => hc c hcc r hm
  have h' : InMemory (cs.foldl (fun s c => c.after s) s) d t := {
    live := ⟨lt_of_lt_of_le l1 hl, lt_of_lt_of_le l2 hl, lt_of_lt_of_le l3 hl, lt_of_lt_of_le l4 hl, lt_of_lt_of_le l5 hl⟩
    nodes := (k _ l1 (by simp)).trans h.nodes
    cons := (k _ l2 (by simp)).trans h.cons
    elements := (k _ l3 (by simp)).trans h.elements
    mats := (k _ l4 (by simp)).trans h.mats
    loads := (k _ l5 (by simp)).trans h.loads }
  obtain ⟨a1, a2⟩ := C163_auto (sq := sq) (sp := sp) (de := de) (plot := plot) h
  obtain ⟨b1, b2⟩ := C163_auto (sq := sq) (sp := sp) (de := de) (plot := plot) h'
  rcases hp : Gui.solidsAuto sq sp de t plot with e | res
  · rw [a1 _ hp, b1 _ hp]
  · obtain ⟨o, s1, e1, _⟩ := a2 _ hp
    obtain ⟨o', s2, e2, _⟩ := b2 _ hp
    rw [e1, e2]
    rfl

/-- C163.  Boundary conditions accumulate in the array: calls on the original reference continue from each other. -/
theorem C163_accumulate {setList : List ℤ → List ℤ} {cells : String → Option (List (List ℤ))} {cellData : String → Option (List ℤ)}
    {s : Store K} {nodes : ℕ} (l : List (ℤ × K × K)) {t t' : Table K} (h : s.arr nodes = .float t)
    (hp : l.foldlM (fun t q => Pre.boundaryConditions setList cells cellData q.1 t q.2.1 q.2.2) t = .ok t') :
    ((l.map fun q => Call.conditions setList cells cellData q.1 nodes q.2.1 q.2.2).foldl (fun s c => c.after s) s).arr nodes =
      .float t' := by
  induction l generalizing s t with
  | nil =>
    rw [List.foldlM_nil, pure_ok] at hp
    subst hp
    exact h
  | cons q l ih =>
    rw [List.foldlM_cons, bind_ok] at hp
    obtain ⟨t1, h1, h2⟩ := hp
    obtain ⟨s', e1, e2, _⟩ := (C163_conditions h).2 _ h1
    rw [List.map_cons, List.foldl_cons]
    refine ih ?_ h2
    show (boundaryConditions setList cells cellData q.1 nodes q.2.1 q.2.2 s).2.arr nodes = _
    rw [e1]
    exact e2

end
end Heap
end

/-! ## Cases -/

section demo
open Heap

/-- The truss of two bars in memory. -/
def demoStore : Store ℚ where
  arr := fun r => match r with
    | 0 => .float demoTruss.nodes
    | 1 => .float demoTruss.cons
    | 2 => .int demoTruss.elements
    | 3 => .float demoTruss.mats
    | _ => .float demoTruss.loads
  next := 5

/-- Its dictionary. -/
def demoRefs : Refs := ⟨0, 1, 2, 3, 4⟩

theorem demo_holds : InMemory demoStore demoRefs demoTruss :=
  ⟨by decide, rfl, rfl, rfl, rfl, rfl⟩

/-- Case for C163: the constraints are as before the run, and a second run gives the same displacements. -/
example : (Heap.solidsAuto demoSq cramerSolver cramerSolver demoRefs false demoStore).2.arr 1 = .float [[-1, -1], [-1, -1], [0, 0]] ∧
    ∃ res out s', Heap.solidsAuto demoSq cramerSolver cramerSolver demoRefs false
      (Heap.solidsAuto demoSq cramerSolver cramerSolver demoRefs false demoStore).2 = (.ok (res, out), s') ∧
      res.disp = [[0, 0], [0, 0], [5/2, -3]] := by
  have hk := (keeps_solidsAuto (sq := demoSq) (sp := cramerSolver) (de := cramerSolver) demoRefs false) demoStore
  refine ⟨hk.2 1 (by decide) trivial, ?_⟩
  obtain ⟨res, h, hd, _⟩ := demo_ok
  have h' := Heap.C163_repeatable (sq := demoSq) (sp := cramerSolver) (de := cramerSolver)
    [.auto demoSq cramerSolver cramerSolver demoRefs false] demo_holds (by simp [Call.conditionsOn]) false
  obtain ⟨out, s', e, _⟩ := (Heap.C163_auto demo_holds).2 res h
  rw [e] at h'
  simp only [List.foldl_cons, List.foldl_nil, Call.after] at h'
  rcases hr : Heap.solidsAuto demoSq cramerSolver cramerSolver demoRefs false
      (Heap.solidsAuto demoSq cramerSolver cramerSolver demoRefs false demoStore).2 with ⟨a, s2⟩
  rw [hr] at h'
  rcases a with _ | ⟨res2, out2⟩
  · cases h'
  · cases h'
    exact ⟨_, _, _, rfl, hd⟩

/-- Case for C163: lines with two tags; the second call finds the rollers written by the first. -/
example : ((boundaryConditions (K := ℚ) id (fun _ => some [[0, 1], [1, 2]]) (fun _ => some [300, 400]) 400 0 (-1) 0
      (boundaryConditions (K := ℚ) id (fun _ => some [[0, 1], [1, 2]]) (fun _ => some [300, 400]) 300 0 0 (-1)
        ⟨fun _ => .float [[0, 0, 0, 0, 0], [1, 1, 0, 0, 0], [2, 2, 0, 0, 0]], 1⟩).2).2.arr 0) =
    .float [[0, 0, 0, 0, -1], [1, 1, 0, -1, 0], [2, 2, 0, -1, 0]] := by
  have h1 : Pre.boundaryConditions (K := ℚ) id (fun _ => some [[0, 1], [1, 2]]) (fun _ => some [300, 400]) 300
      [[0, 0, 0, 0, 0], [1, 1, 0, 0, 0], [2, 2, 0, 0, 0]] 0 (-1) = .ok [[0, 0, 0, 0, -1], [1, 1, 0, 0, -1], [2, 2, 0, 0, 0]] := by
    decide +kernel
  have h2 : Pre.boundaryConditions (K := ℚ) id (fun _ => some [[0, 1], [1, 2]]) (fun _ => some [300, 400]) 400
      [[0, 0, 0, 0, -1], [1, 1, 0, 0, -1], [2, 2, 0, 0, 0]] (-1) 0 = .ok [[0, 0, 0, 0, -1], [1, 1, 0, -1, 0], [2, 2, 0, -1, 0]] := by
    decide +kernel
  exact Heap.C163_accumulate (setList := id) (cells := fun _ => some [[0, 1], [1, 2]]) (cellData := fun _ => some [300, 400])
    (s := ⟨fun _ => .float [[0, 0, 0, 0, 0], [1, 1, 0, 0, 0], [2, 2, 0, 0, 0]], 1⟩) (nodes := 0)
    [(300, 0, -1), (400, -1, 0)] rfl (by
      rw [List.foldlM_cons, h1, ok_bind, List.foldlM_cons, h2]
      rfl)

end demo
end SolidsPy
