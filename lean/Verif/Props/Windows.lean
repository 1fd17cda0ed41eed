import Verif.Model.Plot
import Verif.Proofs.Py
import Mathlib.Data.List.Sort

/-!
# C107: which field is drawn in which window
-/

namespace SolidsPy
open Plot

variable {K : Type}

/-- The window is called by this number or label. -/
def Called : Key → Fig K → Prop
  | .num n, f => f.num = n
  | .label s, f => f.label = s

instance (k : Key) : DecidablePred (Called (K := K) k) := fun f => by
  cases k <;> exact inferInstanceAs (Decidable (_ = _))

/-- What the window `key` shows, if it is open. -/
def Shows (st : State K) (key : Key) : Option (List (Drawing K)) :=
  (st.figs.find? fun f => Called key f).map (·.drawn)

/-- Open windows have different numbers, listed by increasing number. -/
def Tidy (st : State K) : Prop := (st.figs.map (·.num)).Pairwise (· < ·)

/-- Numbers only, or labels only, all different. -/
def Separate (keys : List Key) : Prop :=
  (∃ ns : List ℤ, keys = ns.map .num ∧ ns.Nodup) ∨ ∃ ls : List String, keys = ls.map .label ∧ ls.Nodup

/-- The values of the `j`-th column; a 1-D array is its only column. -/
def IsColumn : NodeField K → ℕ → List K → Prop
  | .vec v, j, w => j = 0 ∧ w = v
  | .mat n c f, j, w => ∃ hj : j < c, w.length = n ∧ ∀ i : Fin n, w[(i : ℕ)]? = some (f i ⟨j, hj⟩)

theorem find?_filter_of_imp {α : Type} {p q : α → Bool} (h : ∀ x, p x = true → q x = true) (l : List α) :
    (l.filter q).find? p = l.find? p := by
  induction l with
  | nil => rfl
  | cons a l ih =>
    by_cases hq : q a = true
    · rw [List.filter_cons_of_pos hq, List.find?_cons, List.find?_cons, ih]
    · have hp : p a = false := by
        by_contra hc
        exact hq (h a (by simpa using hc))
      rw [List.filter_cons_of_neg hq, ih, List.find?_cons, hp]

theorem called_of_find {key : Key} {f : Fig K} {l : List (Fig K)} (h : l.find? (fun f => Called key f) = some f) :
    Called key f := by
  have := List.find?_some h
  exact of_decide_eq_true this

theorem insertFig_perm (f : Fig K) (l : List (Fig K)) : (insertFig f l).Perm (f :: l) := by
  induction l with
  | nil => exact List.Perm.refl _
  | cons g gs ih =>
    unfold insertFig
    split
    · exact List.Perm.refl _
    · exact (List.Perm.cons g ih).trans (List.Perm.swap f g gs)

theorem insertFig_sorted {f : Fig K} {l : List (Fig K)} (h : (l.map (·.num)).Pairwise (· < ·))
    (hf : f.num ∉ l.map (·.num)) : ((insertFig f l).map (·.num)).Pairwise (· < ·) := by
  induction l with
  | nil => simp [insertFig]
  | cons g gs ih =>
    rw [List.map_cons, List.pairwise_cons] at h
    unfold insertFig
    split
    · rename_i hlt
      rw [List.map_cons, List.map_cons, List.pairwise_cons, List.pairwise_cons]
      refine ⟨?_, h⟩
      intro a ha
      rcases List.mem_cons.1 ha with rfl | ha
      · exact hlt
      · exact lt_trans hlt (h.1 a ha)
    · rename_i hlt
      rw [List.map_cons, List.mem_cons, not_or] at hf
      rw [List.map_cons, List.pairwise_cons]
      refine ⟨?_, ih h.2 hf.2⟩
      intro a ha
      rw [((insertFig_perm f gs).map _).mem_iff, List.map_cons] at ha
      rcases List.mem_cons.1 ha with rfl | ha
      · exact lt_of_le_of_ne (not_lt.1 hlt) (Ne.symm hf.1)
      · exact h.1 a ha

theorem filter_insertFig {p : Fig K → Bool} {f : Fig K} (hp : p f = false) (l : List (Fig K)) :
    (insertFig f l).filter p = l.filter p := by
  induction l with
  | nil => simp [insertFig, hp]
  | cons g gs ih =>
    unfold insertFig
    split
    · rw [List.filter_cons_of_neg (by simp [hp])]
    · rw [List.filter_cons, List.filter_cons, ih]

theorem lt_nextNum {l : List (Fig K)} (h : (l.map (·.num)).Pairwise (· < ·)) {f : Fig K} (hf : f ∈ l) :
    f.num < nextNum l := by
  rcases List.eq_nil_or_concat l with rfl | ⟨l', g, rfl⟩
  · simp at hf
  · rw [List.concat_eq_append] at *
    have e : nextNum (l' ++ [g]) = g.num + 1 := by
      unfold nextNum
      rw [List.getLast?_append]
      rfl
    rw [e]
    rw [List.map_append, List.pairwise_append] at h
    rcases List.mem_append.1 hf with hf | hf
    · have := h.2.2 f.num (List.mem_map.2 ⟨f, hf, rfl⟩) g.num (by simp)
      omega
    · rw [List.mem_singleton.1 hf]
      omega

/-- A window is named: afterwards one with this name is the current one, and the others are as before. -/
theorem figure_spec {st : State K} (ht : Tidy st) (key : Key) :
    Tidy (figure st key) ∧
    (∃ f, (figure st key).figs.find? (fun f => Called key f) = some f ∧ f.num = (figure st key).current ∧
      f.drawn = (Shows st key).getD []) ∧
    (figure st key).figs.filter (fun f => ¬ Called key f) = st.figs.filter (fun f => ¬ Called key f) ∧
    (figure st key).files = st.files ∧
    (figure st key).figs.length = st.figs.length + if (Shows st key).isSome then 0 else 1 := by
  cases key with
  | num n =>
    unfold figure
    dsimp only
    split
    · rename_i hn
      obtain ⟨g, hg, hgn⟩ := List.mem_map.1 hn
      have hex : ∃ f, st.figs.find? (fun f => Called (.num n) f) = some f := by
        rw [← Option.isSome_iff_exists, List.find?_isSome]
        exact ⟨g, hg, decide_eq_true hgn⟩
      obtain ⟨f, hf⟩ := hex
      refine ⟨ht, ⟨f, hf, ?_, ?_⟩, rfl, rfl, ?_⟩
      · exact called_of_find hf
      · unfold Shows
        rw [hf]
        rfl
      · unfold Shows
        rw [hf]
        rfl
    · rename_i hn
      have h0 : st.figs.find? (fun f => Called (.num n) f) = none := by
        rw [List.find?_eq_none]
        intro f hf hc
        exact hn (List.mem_map.2 ⟨f, hf, of_decide_eq_true hc⟩)
      have hp : (decide (¬ Called (.num n) (⟨n, "", []⟩ : Fig K))) = false := by simp [Called]
      refine ⟨insertFig_sorted ht hn, ⟨⟨n, "", []⟩, ?_, rfl, ?_⟩, filter_insertFig hp _, rfl, ?_⟩
      · have hmem : (⟨n, "", []⟩ : Fig K) ∈ insertFig ⟨n, "", []⟩ st.figs :=
          (insertFig_perm _ _).mem_iff.2 List.mem_cons_self
        have hex : ∃ f, (insertFig ⟨n, "", []⟩ st.figs).find? (fun f => Called (.num n) f) = some f := by
          rw [← Option.isSome_iff_exists, List.find?_isSome]
          exact ⟨_, hmem, by simp [Called]⟩
        obtain ⟨f, hf⟩ := hex
        have h1 := List.mem_of_find?_eq_some hf
        have h2 := List.find?_some hf
        rw [(insertFig_perm _ _).mem_iff] at h1
        rcases List.mem_cons.1 h1 with rfl | h1
        · exact hf
        · exact absurd (List.mem_map.2 ⟨f, h1, of_decide_eq_true h2⟩) hn
      · unfold Shows
        rw [h0]
        rfl
      · unfold Shows
        rw [h0]
        exact (insertFig_perm _ _).length_eq
  | label s =>
    have hfind : st.figs.find? (fun f => decide (f.label = s)) = st.figs.find? (fun f => Called (.label s) f) := rfl
    unfold figure
    dsimp only
    rw [hfind]
    cases hf : st.figs.find? (fun f => Called (.label s) f) with
    | some f =>
      refine ⟨ht, ⟨f, hf, rfl, ?_⟩, rfl, rfl, ?_⟩
      · unfold Shows
        rw [hf]
        rfl
      · unfold Shows
        rw [hf]
        rfl
    | none =>
      refine ⟨?_, ⟨⟨nextNum st.figs, s, []⟩, ?_, rfl, ?_⟩, ?_, rfl, ?_⟩
      · unfold Tidy
        dsimp only
        rw [List.map_append, List.pairwise_append]
        refine ⟨ht, by simp, ?_⟩
        intro a ha b hb
        obtain ⟨f, hf', rfl⟩ := List.mem_map.1 ha
        simp only [List.map_cons, List.map_nil, List.mem_singleton] at hb
        subst hb
        exact lt_nextNum ht hf'
      · dsimp only
        rw [List.find?_append, hf]
        simp [Called]
      · unfold Shows
        rw [hf]
        rfl
      · dsimp only
        rw [List.filter_append]
        simp [Called]
      · unfold Shows
        rw [hf]
        simp

/-- Something is drawn in the current window. -/
theorem draw_spec {st : State K} (ht : Tidy st) {key : Key} {f : Fig K}
    (hf : st.figs.find? (fun f => Called key f) = some f) (hc : f.num = st.current) (d : Drawing K) :
    Tidy (draw st d) ∧
    (draw st d).figs.find? (fun f => Called key f) = some { f with drawn := f.drawn ++ [d] } ∧
    (draw st d).figs.filter (fun f => ¬ Called key f) = st.figs.filter (fun f => ¬ Called key f) := by
  let upd : Fig K → Fig K := fun g => if g.num = st.current then { g with drawn := g.drawn ++ [d] } else g
  have hnum : ∀ g, (upd g).num = g.num := by
    intro g
    dsimp only [upd]
    split <;> rfl
  have hcall : ∀ g, Called key (upd g) ↔ Called key g := by
    intro g
    dsimp only [upd]
    split <;> cases key <;> rfl
  have hfigs : (draw st d).figs = st.figs.map upd := rfl
  have hcall' : ((fun f => decide (Called key f)) ∘ upd) = fun f => decide (Called key f) := by
    funext g
    exact decide_eq_decide.2 (hcall g)
  have hcall'' : ((fun f => decide (¬ Called key f)) ∘ upd) = fun f => decide (¬ Called key f) := by
    funext g
    exact decide_eq_decide.2 (not_congr (hcall g))
  have hmem := List.mem_of_find?_eq_some hf
  have huniq : ∀ g ∈ st.figs, g.num = st.current → g = f := by
    intro g hg hgc
    have hnd : (st.figs.map (·.num)).Nodup := ht.imp (fun h => ne_of_lt h)
    exact List.inj_on_of_nodup_map hnd hg hmem (hgc.trans hc.symm)
  refine ⟨?_, ?_, ?_⟩
  · unfold Tidy
    rw [hfigs, List.map_map]
    have : ((fun f : Fig K => f.num) ∘ upd) = fun f => f.num := funext hnum
    rw [this]
    exact ht
  · rw [hfigs, List.find?_map, hcall', hf, Option.map_some]
    dsimp only [upd]
    rw [if_pos hc]
  · rw [hfigs, List.filter_map, hcall'']
    refine (List.map_congr_left ?_).trans (List.map_id _)
    intro g hg
    obtain ⟨hg1, hg2⟩ := List.mem_filter.1 hg
    dsimp only [upd, id]
    rw [if_neg]
    intro hgc
    rw [huniq g hg1 hgc] at hg2
    exact of_decide_eq_true hg2 (called_of_find hf)

theorem column_spec {field : NodeField K} {j : ℕ} (hj : j < nfields field) {v : List K}
    (h : column field j = some v) : IsColumn field j v := by
  cases field with
  | vec w =>
    have hj' : j < 1 := hj
    exact ⟨by omega, (Option.some.inj h).symm⟩
  | mat n c f =>
    have hj' : j < c := hj
    unfold column at h
    dsimp only at h
    rw [dif_pos hj'] at h
    split at h
    · simp at h
    · rw [Option.some.injEq] at h
      subst h
      exact ⟨hj', by simp, fun i => by simp⟩

theorem column_eq {field : NodeField K} {j : ℕ} {v : List K} (hv : IsColumn field j v)
    (hf : ∀ n f, field ≠ .mat n 1 f) : column field j = some v := by
  cases field with
  | vec w => exact congrArg some hv.2.symm
  | mat n c f =>
    obtain ⟨hj, h1, h2⟩ := hv
    unfold column
    dsimp only
    rw [if_neg, dif_pos hj, Option.some.injEq]
    · apply List.ext_getElem?
      intro i
      by_cases hi : i < n
      · rw [h2 ⟨i, hi⟩]
        simp [hi]
      · rw [List.getElem?_eq_none (by simp; omega), List.getElem?_eq_none (by omega)]
    · rintro rfl
      exact hf n f rfl

/-- One column: the conditions for it to be drawn, and the state it leaves. -/
theorem plotColumn_ok {field : NodeField K} {npts : ℕ} {tris : List (List ℤ)} {plt : String} {save : Bool}
    {title : List String} {keys : List Key} {names : List String} {st st' : State K} {j : ℕ} :
    plotColumn field npts tris plt save title keys names st j = .ok st' ↔
      ∃ key t name v, keys[j]? = some key ∧ title[j]? = some t ∧ names[j]? = some name ∧
        (plt = "pcolor" ∨ plt = "contourf") ∧ column field j = some v ∧ v.length = npts ∧
        st' = (if save then savefig (savefig (draw (figure st key) ⟨tris, v, t⟩) name) name
          else draw (figure st key) ⟨tris, v, t⟩) := by
  unfold plotColumn triPlot
  constructor
  · intro h
    obtain ⟨key, h1, h⟩ := bind_ok.1 h
    obtain ⟨t, h2, h⟩ := bind_ok.1 h
    obtain ⟨name, h3, h⟩ := bind_ok.1 h
    obtain ⟨s1, h4, h⟩ := bind_ok.1 h
    refine ⟨key, t, name, ?_⟩
    by_cases hp : plt ≠ "pcolor" ∧ plt ≠ "contourf"
    · rw [if_pos hp] at h4
      cases h4
    · rw [if_neg hp] at h4
      cases hv : column field j with
      | none =>
        rw [hv] at h4
        cases h4
      | some v =>
        rw [hv] at h4
        by_cases hl : v.length ≠ npts
        · simp only [if_pos hl] at h4
          cases h4
        · simp only [if_neg hl] at h4
          refine ⟨v, pyGet_nat.1 h1, pyGet_nat.1 h2, pyGet_nat.1 h3, ?_, rfl, not_not.1 hl, ?_⟩
          · by_contra hc
            exact hp (not_or.1 hc)
          · have e := pure_ok.1 h
            have e2 : (if save then savefig (draw (figure st key) ⟨tris, v, t⟩) name
              else draw (figure st key) ⟨tris, v, t⟩) = s1 := pure_ok.1 h4
            subst e2
            rw [← e]
            cases save <;> rfl
  · rintro ⟨key, t, name, v, h1, h2, h3, hp, hv, hl, rfl⟩
    have hp' : ¬ (plt ≠ "pcolor" ∧ plt ≠ "contourf") := by
      rcases hp with rfl | rfl <;> simp
    rw [pyGet_nat.2 h1, ok_bind, pyGet_nat.2 h2, ok_bind, pyGet_nat.2 h3, ok_bind, if_neg hp', hv]
    simp only [hl, ne_eq, not_true_eq_false, if_false]
    cases save <;> rfl

theorem Separate.disjoint {keys : List Key} (h : Separate keys) {i j : ℕ} {a b : Key} (hi : keys[i]? = some a)
    (hj : keys[j]? = some b) (hij : i ≠ j) (f : Fig K) : ¬ (Called a f ∧ Called b f) := by
  rcases h with ⟨ns, rfl, hn⟩ | ⟨ls, rfl, hn⟩
  · rw [List.getElem?_map, Option.map_eq_some_iff] at hi hj
    obtain ⟨x, hx, rfl⟩ := hi
    obtain ⟨y, hy, rfl⟩ := hj
    rintro ⟨h1, h2⟩
    have : x = y := h1.symm.trans h2
    subst this
    exact hij ((List.getElem?_inj (List.getElem?_eq_some_iff.1 hx).1 hn).1 (hx.trans hy.symm))
  · rw [List.getElem?_map, Option.map_eq_some_iff] at hi hj
    obtain ⟨x, hx, rfl⟩ := hi
    obtain ⟨y, hy, rfl⟩ := hj
    rintro ⟨h1, h2⟩
    have : x = y := h1.symm.trans h2
    subst this
    exact hij ((List.getElem?_inj (List.getElem?_eq_some_iff.1 hx).1 hn).1 (hx.trans hy.symm))

/-- Windows not named keep what they show. -/
theorem shows_of_filter {st st' : State K} {key : Key} {q : Fig K → Bool}
    (h : st'.figs.filter q = st.figs.filter q) (hq : ∀ f, Called key f → q f = true) :
    Shows st' key = Shows st key := by
  unfold Shows
  rw [← find?_filter_of_imp (p := fun f => decide (Called key f)) (q := q) (fun f hf => hq f (of_decide_eq_true hf)),
    h, find?_filter_of_imp (fun f hf => hq f (of_decide_eq_true hf))]

theorem savefig_figs (st : State K) (name : String) : (savefig st name).figs = st.figs := rfl

/-- One column drawn. -/
theorem plotColumn_spec {field : NodeField K} {npts : ℕ} {tris : List (List ℤ)} {plt : String} {save : Bool}
    {title : List String} {keys : List Key} {names : List String} {st st' : State K} {j : ℕ} (ht : Tidy st)
    (h : plotColumn field npts tris plt save title keys names st j = .ok st') :
    ∃ key t name v, keys[j]? = some key ∧ title[j]? = some t ∧ names[j]? = some name ∧ column field j = some v ∧
      Tidy st' ∧ Shows st' key = some ((Shows st key).getD [] ++ [⟨tris, v, t⟩]) ∧
      st'.figs.filter (fun f => ¬ Called key f) = st.figs.filter (fun f => ¬ Called key f) ∧
      st'.figs.length = st.figs.length + (if (Shows st key).isSome then 0 else 1) ∧
      st'.files = st.files ++ (if save then
        [(name, (Shows st key).getD [] ++ [⟨tris, v, t⟩]), (name, (Shows st key).getD [] ++ [⟨tris, v, t⟩])] else []) := by
  obtain ⟨key, t, name, v, h1, h2, h3, -, hv, -, rfl⟩ := plotColumn_ok.1 h
  obtain ⟨a1, ⟨f, a2, a3, a4⟩, a5, a6, a7⟩ := figure_spec ht key
  obtain ⟨b1, b2, b3⟩ := draw_spec a1 a2 a3 ⟨tris, v, t⟩
  have hlen : (draw (figure st key) ⟨tris, v, t⟩).figs.length = (figure st key).figs.length := List.length_map ..
  have hcur : ((draw (figure st key) ⟨tris, v, t⟩).figs.find? fun f =>
      decide (f.num = (draw (figure st key) ⟨tris, v, t⟩).current)) =
      some { f with drawn := f.drawn ++ [⟨tris, v, t⟩] } := by
    have hm := List.mem_of_find?_eq_some b2
    have hex : ∃ g, ((draw (figure st key) ⟨tris, v, t⟩).figs.find? fun f =>
      decide (f.num = (draw (figure st key) ⟨tris, v, t⟩).current)) = some g := by
      rw [← Option.isSome_iff_exists, List.find?_isSome]
      exact ⟨_, hm, decide_eq_true a3⟩
    obtain ⟨g, hg⟩ := hex
    have hg1 := List.mem_of_find?_eq_some hg
    have hg2 := List.find?_some hg
    rw [hg, Option.some.injEq]
    have hnd : ((draw (figure st key) ⟨tris, v, t⟩).figs.map (·.num)).Nodup := b1.imp (fun h => ne_of_lt h)
    exact List.inj_on_of_nodup_map hnd hg1 hm ((of_decide_eq_true hg2).trans a3.symm)
  refine ⟨key, t, name, v, h1, h2, h3, hv, ?_⟩
  cases save with
  | false =>
    refine ⟨b1, ?_, b3.trans a5, hlen.trans a7, ?_⟩
    · unfold Shows at a4 ⊢
      simp only [Bool.false_eq_true, if_false]
      rw [b2, ← a4]
      rfl
    · simp only [Bool.false_eq_true, if_false, List.append_nil]
      exact a6
  | true =>
    have hfile : ∀ (s : State K), s.figs = (draw (figure st key) ⟨tris, v, t⟩).figs →
        s.current = (draw (figure st key) ⟨tris, v, t⟩).current →
        (savefig s name).files = s.files ++ [(name, (Shows st key).getD [] ++ [⟨tris, v, t⟩])] := by
      intro s e1 e2
      unfold savefig
      dsimp only
      rw [e1, e2, hcur, ← a4]
      rfl
    refine ⟨b1, ?_, b3.trans a5, hlen.trans a7, ?_⟩
    · simp only [if_true]
      unfold Shows at a4 ⊢
      rw [savefig_figs, savefig_figs, b2, ← a4]
      rfl
    · simp only [if_true]
      rw [hfile (savefig (draw (figure st key) ⟨tris, v, t⟩) name) rfl rfl, hfile (draw (figure st key) ⟨tris, v, t⟩) rfl rfl,
        List.append_assoc]
      exact congrArg (· ++ _) a6

theorem filter_of_filter {p q : Fig K → Bool} (h : ∀ f, q f = true → p f = true) {l l' : List (Fig K)}
    (hl : l.filter p = l'.filter p) : l.filter q = l'.filter q := by
  have key : ∀ m : List (Fig K), m.filter q = (m.filter p).filter q := by
    intro m
    rw [List.filter_filter]
    congr 1
    funext f
    cases hq : q f
    · simp
    · simp [h f hq]
  rw [key l, hl, ← key l']

/-- All columns drawn. -/
theorem fold_spec {field : NodeField K} {npts : ℕ} {tris : List (List ℤ)} {plt : String} {save : Bool}
    {title : List String} {keys : List Key} {names : List String} (hk : Separate keys) :
    ∀ (js : List ℕ) {st st' : State K}, js.Nodup → Tidy st →
    js.foldlM (plotColumn field npts tris plt save title keys names) st = .ok st' →
    Tidy st' ∧
    (∀ j ∈ js, ∃ key t v, keys[j]? = some key ∧ title[j]? = some t ∧ column field j = some v ∧
      Shows st' key = some ((Shows st key).getD [] ++ [⟨tris, v, t⟩])) ∧
    (∀ q : Fig K → Bool, (∀ j ∈ js, ∀ key, keys[j]? = some key → ∀ f, Called key f → q f = false) →
      st'.figs.filter q = st.figs.filter q) ∧
    st'.figs.length = st.figs.length + (js.filter fun j => (keys[j]?.bind (Shows st)).isNone).length ∧
    ∃ e : ℕ → String × List (Drawing K),
      st'.files = st.files ++ (if save then js.flatMap fun j => [e j, e j] else []) ∧
      ∀ j ∈ js, names[j]? = some (e j).1 ∧ ∃ key, keys[j]? = some key ∧ Shows st' key = some (e j).2 := by
  intro js
  induction js with
  | nil =>
    intro st st' _ ht h
    have e := pure_ok.1 h
    subst e
    exact ⟨ht, by simp, by simp, by simp, fun _ => ("", []), by simp, by simp⟩
  | cons j js ih =>
    intro st st' hn ht h
    rw [List.nodup_cons] at hn
    rw [List.foldlM_cons] at h
    obtain ⟨s1, h1, h2⟩ := bind_ok.1 h
    obtain ⟨key, t, name, v, a1, a2, a3, a4, a5, a6, a7, a8, a9⟩ := plotColumn_spec ht h1
    obtain ⟨b1, b2, b3, b4, e, b5, b6⟩ := ih hn.2 a5 h2
    have hsame : ∀ i ∈ js, ∀ key', keys[i]? = some key' → Shows s1 key' = Shows st key' := by
      intro i hi key' hk'
      refine shows_of_filter a7 fun f hf => decide_eq_true fun hc => ?_
      exact hk.disjoint a1 hk' (fun hij => hn.1 (hij ▸ hi)) f ⟨hc, hf⟩
    have hkeep : Shows st' key = Shows s1 key := by
      refine shows_of_filter (q := fun f => decide (Called key f)) (b3 _ ?_) fun f hf => decide_eq_true hf
      intro i hi key' hk' f hf
      refine decide_eq_false fun hc => ?_
      exact hk.disjoint a1 hk' (fun hij => hn.1 (hij ▸ hi)) f ⟨hc, hf⟩
    refine ⟨b1, ?_, ?_, ?_, fun i => if i = j then (name, (Shows st key).getD [] ++ [⟨tris, v, t⟩]) else e i, ?_, ?_⟩
    · intro i hi
      rcases List.mem_cons.1 hi with rfl | hi
      · exact ⟨key, t, v, a1, a2, a4, hkeep.trans a6⟩
      · obtain ⟨key', t', v', c1, c2, c3, c4⟩ := b2 i hi
        exact ⟨key', t', v', c1, c2, c3, by rw [c4, hsame i hi key' c1]⟩
    · intro q hq
      rw [b3 q fun i hi => hq i (List.mem_cons_of_mem _ hi)]
      refine filter_of_filter (p := fun f => decide (¬ Called key f)) (fun f hf => ?_) a7
      refine decide_eq_true fun hc : Called key f => ?_
      rw [hq j List.mem_cons_self key a1 f hc] at hf
      cases hf
    · rw [b4, a8]
      have hfil : (js.filter fun i => (keys[i]?.bind (Shows s1)).isNone) =
          js.filter fun i => (keys[i]?.bind (Shows st)).isNone := by
        refine List.filter_congr fun i hi => ?_
        obtain ⟨key', -, -, c1, -⟩ := b2 i hi
        rw [c1, Option.bind_some, Option.bind_some, hsame i hi key' c1]
      rw [hfil, List.filter_cons, a1, Option.bind_some]
      cases hs : Shows st key with
      | none => simp; omega
      | some w => simp
    · rw [b5, a9, List.append_assoc]
      congr 1
      cases save with
      | false => simp
      | true =>
        simp only [if_true, List.flatMap_cons]
        congr 1
        refine List.flatMap_congr fun i hi => ?_
        have hij : i ≠ j := fun hij => hn.1 (hij ▸ hi)
        rw [if_neg hij]
    · intro i hi
      dsimp only
      rcases List.mem_cons.1 hi with rfl | hi
      · rw [if_pos rfl]
        exact ⟨a3, key, a1, hkeep.trans a6⟩
      · have hij : i ≠ j := fun hij => hn.1 (hij ▸ hi)
        rw [if_neg hij]
        exact b6 i hi

/-- C107.  Each column of the field is drawn, with its title, in the window named for it, after what the window showed before
(a window with that name is opened if there is none); all other windows stay as they are, in the same order. -/
theorem C107_draws {st st' : State K} (ht : Tidy st) {field : NodeField K} {nn : ℕ} {els : List (List ℤ)} {plt : String}
    {save : Bool} {title names : Option (List String)} {keys : List Key} (hk : Separate keys)
    (h : plotNodeField st field nn els plt save title (some keys) names = .ok st') :
    ∃ tris, Post.mesh2tri nn els = .ok tris ∧ Tidy st' ∧
      (∀ j < nfields field, ∃ key t v, keys[j]? = some key ∧
        (∀ l, title = some l → l[j]? = some t) ∧ (title = none → t = "") ∧ IsColumn field j v ∧
        Shows st' key = some ((Shows st key).getD [] ++ [⟨tris, v, t⟩])) ∧
      ∀ q : Fig K → Bool, (∀ f, q f = true → ∀ key ∈ keys.take (nfields field), ¬ Called key f) →
        st'.figs.filter q = st.figs.filter q := by
  unfold plotNodeField at h
  obtain ⟨tris, h1, h⟩ := bind_ok.1 h
  obtain ⟨b1, b2, b3, -⟩ := fold_spec hk _ List.nodup_range ht h
  refine ⟨tris, h1, b1, ?_, ?_⟩
  · intro j hj
    obtain ⟨key, t, v, c1, c2, c3, c4⟩ := b2 j (List.mem_range.2 hj)
    refine ⟨key, t, v, c1, ?_, ?_, column_spec hj c3, c4⟩
    · rintro l rfl
      exact c2
    · rintro rfl
      rw [Option.getD_none, List.getElem?_replicate, if_pos hj] at c2
      exact (Option.some.inj c2).symm
  · intro q hq
    refine b3 q fun j hj key hkey f hf => ?_
    by_contra hc
    refine hq f (by simpa using hc) key ?_ hf
    rw [List.mem_iff_getElem?]
    exact ⟨j, by rw [List.getElem?_take, if_pos (List.mem_range.1 hj)]; exact hkey⟩

/-- C107.  Without names the windows are numbered after the count of open windows: every column gets a window of its own, and
no other changes, exactly when none of these numbers is in use. -/
theorem C107_default {st st' : State K} (ht : Tidy st) {field : NodeField K} {nn : ℕ} {els : List (List ℤ)} {plt : String}
    {save : Bool} {title names : Option (List String)}
    (h : plotNodeField st field nn els plt save title none names = .ok st') :
    (∀ j < nfields field, ∃ t v, IsColumn field j v ∧ ∃ tris, Post.mesh2tri nn els = .ok tris ∧
      Shows st' (.num (st.figs.length + j + 1)) =
        some ((Shows st (.num (st.figs.length + j + 1))).getD [] ++ [⟨tris, v, t⟩])) ∧
    (st'.figs.length = st.figs.length + nfields field ↔
      ∀ f ∈ st.figs, ¬ (st.figs.length < f.num ∧ f.num ≤ st.figs.length + nfields field)) := by
  have hk : Separate ((List.range (nfields field)).map fun cont : ℕ => Key.num ((st.figs.length : ℤ) + cont + 1)) := by
    refine Or.inl ⟨(List.range (nfields field)).map fun cont : ℕ => (st.figs.length : ℤ) + cont + 1, by simp, ?_⟩
    refine List.Nodup.map ?_ List.nodup_range
    intro a b hab
    simpa using hab
  unfold plotNodeField at h
  obtain ⟨tris, h1, h⟩ := bind_ok.1 h
  obtain ⟨-, b2, -, b4, -⟩ := fold_spec hk _ List.nodup_range ht h
  refine ⟨?_, ?_⟩
  · intro j hj
    obtain ⟨key, t, v, c1, c2, c3, c4⟩ := b2 j (List.mem_range.2 hj)
    have : key = .num (st.figs.length + j + 1) := by
      rw [List.getElem?_map, List.getElem?_range hj, Option.map_some] at c1
      exact (Option.some.inj c1).symm
    subst this
    exact ⟨t, v, column_spec hj c3, tris, h1, c4⟩
  · rw [b4]
    have hcount : ∀ j ∈ List.range (nfields field), ((((List.range (nfields field)).map fun cont : ℕ =>
        Key.num ((st.figs.length : ℤ) + cont + 1))[j]?.bind (Shows st)).isNone = true ↔
        ∀ f ∈ st.figs, f.num ≠ st.figs.length + j + 1) := by
      intro j hj
      rw [List.getElem?_map, List.getElem?_range (List.mem_range.1 hj), Option.map_some, Option.bind_some]
      unfold Shows
      rw [Option.isNone_map, Option.isNone_iff_eq_none, List.find?_eq_none]
      constructor
      · intro h f hf hc
        exact h f hf (decide_eq_true hc)
      · intro h f hf hc
        exact h f hf (of_decide_eq_true hc)
    constructor
    · intro hl f hf ⟨h1, h2⟩
      have hall := (List.length_filter_eq_length_iff (l := List.range (nfields field))).1
        ((Nat.add_left_cancel hl).trans List.length_range.symm)
      obtain ⟨j, hj⟩ : ∃ j : ℕ, f.num = st.figs.length + j + 1 := ⟨(f.num - st.figs.length - 1).toNat, by omega⟩
      have hjr : j ∈ List.range (nfields field) := List.mem_range.2 (by omega)
      exact (hcount j hjr).1 (hall j hjr) f hf hj
    · intro hno
      congr 1
      refine ((List.length_filter_eq_length_iff).2 fun j hj => (hcount j hj).2 fun f hf hc => ?_).trans List.length_range
      exact hno f hf (by have := List.mem_range.1 hj; omega)

/-- C107.  When figures are saved, each file is written twice, with what its window shows at the end. -/
theorem C107_saved {st st' : State K} (ht : Tidy st) {field : NodeField K} {nn : ℕ} {els : List (List ℤ)} {plt : String}
    {title : Option (List String)} {keys : List Key} {names : List String} (hk : Separate keys)
    (h : plotNodeField st field nn els plt true title (some keys) (some names) = .ok st') :
    ∃ e : ℕ → String × List (Drawing K),
      st'.files = st.files ++ (List.range (nfields field)).flatMap (fun j => [e j, e j]) ∧
      ∀ j < nfields field, names[j]? = some (e j).1 ∧ ∃ key, keys[j]? = some key ∧ Shows st' key = some (e j).2 := by
  unfold plotNodeField at h
  obtain ⟨tris, h1, h⟩ := bind_ok.1 h
  obtain ⟨-, -, -, -, e, b5, b6⟩ := fold_spec hk _ List.nodup_range ht h
  exact ⟨e, b5, fun j hj => b6 j (List.mem_range.2 hj)⟩

theorem foldlM_exists {α σ : Type} {f : σ → α → Py σ} {good : α → Prop} (l : List α)
    (h : ∀ s a, a ∈ l → ((∃ s', f s a = .ok s') ↔ good a)) (s : σ) :
    (∃ s', l.foldlM f s = .ok s') ↔ ∀ a ∈ l, good a := by
  induction l generalizing s with
  | nil => exact ⟨fun _ a ha => by simp at ha, fun _ => ⟨s, rfl⟩⟩
  | cons a l ih =>
    have ih' := ih fun s b hb => h s b (List.mem_cons_of_mem _ hb)
    constructor
    · rintro ⟨s', hs⟩
      rw [List.foldlM_cons] at hs
      obtain ⟨s1, h1, h2⟩ := bind_ok.1 hs
      intro b hb
      rcases List.mem_cons.1 hb with rfl | hb
      · exact (h s b List.mem_cons_self).1 ⟨s1, h1⟩
      · exact (ih' s1).1 ⟨s', h2⟩ b hb
    · intro hg
      obtain ⟨s1, h1⟩ := (h s a List.mem_cons_self).2 (hg a List.mem_cons_self)
      obtain ⟨s', h2⟩ := (ih' s1).2 fun b hb => hg b (List.mem_cons_of_mem _ hb)
      exact ⟨s', by rw [List.foldlM_cons, h1]; exact h2⟩

/-- C107.  When a field with at least one column is drawn: the mesh can be triangulated, the kind of plot is one of the two known, there is one
value per node, there are enough titles, names and file names — and a 2-D array does not have one column only. -/
theorem C107_returns_iff (st : State K) (field : NodeField K) (nn : ℕ) (els : List (List ℤ)) (plt : String) (save : Bool)
    (title : List String) (keys : List Key) (names : List String) (hpos : 0 < nfields field) :
    (∃ st', plotNodeField st field nn els plt save (some title) (some keys) (some names) = .ok st') ↔
      (∃ tris, Post.mesh2tri nn els = .ok tris) ∧ (plt = "pcolor" ∨ plt = "contourf") ∧
      (∀ n f, field ≠ .mat n 1 f) ∧ (∀ j v, IsColumn field j v → v.length = nn) ∧
      nfields field ≤ title.length ∧ nfields field ≤ keys.length ∧ nfields field ≤ names.length := by
  have hstep : ∀ tris (s : State K) (j : ℕ), j ∈ List.range (nfields field) →
      ((∃ s', plotColumn field nn tris plt save title keys names s j = .ok s') ↔
        (plt = "pcolor" ∨ plt = "contourf") ∧ (∃ v, column field j = some v ∧ v.length = nn) ∧
        j < title.length ∧ j < keys.length ∧ j < names.length) := by
    intro tris s j hj
    constructor
    · rintro ⟨s', hs⟩
      obtain ⟨key, t, name, v, h1, h2, h3, h4, h5, h6, -⟩ := plotColumn_ok.1 hs
      exact ⟨h4, ⟨v, h5, h6⟩, (List.getElem?_eq_some_iff.1 h2).1, (List.getElem?_eq_some_iff.1 h1).1,
        (List.getElem?_eq_some_iff.1 h3).1⟩
    · rintro ⟨h4, ⟨v, h5, h6⟩, h2, h1, h3⟩
      exact ⟨_, plotColumn_ok.2 ⟨keys[j], title[j], names[j], v, List.getElem?_eq_getElem h1, List.getElem?_eq_getElem h2,
        List.getElem?_eq_getElem h3, h4, h5, h6, rfl⟩⟩
  unfold plotNodeField
  constructor
  · rintro ⟨st', h⟩
    obtain ⟨tris, h1, h⟩ := bind_ok.1 h
    have hg := (foldlM_exists _ (hstep tris) st).1 ⟨st', h⟩
    have hlast := hg (nfields field - 1) (List.mem_range.2 (by omega))
    have hone : ∀ n f, field ≠ .mat n 1 f := by
      rintro n f rfl
      obtain ⟨-, ⟨v, hv, -⟩, -⟩ := hg 0 (List.mem_range.2 hpos)
      simp [column] at hv
    refine ⟨⟨tris, h1⟩, hlast.1, hone, ?_, by omega, by omega, by omega⟩
    intro j v hv
    have hj : j < nfields field := by
      cases field with
      | vec w => exact hv.1 ▸ hpos
      | mat n c f => exact hv.1
    obtain ⟨-, ⟨w, hw, hl⟩, -⟩ := hg j (List.mem_range.2 hj)
    rw [column_eq hv hone, Option.some.injEq] at hw
    rw [hw, hl]
  · rintro ⟨⟨tris, h1⟩, hp, hone, hv, ht, hk, hn⟩
    rw [h1, ok_bind]
    refine (foldlM_exists _ (hstep tris) st).2 fun j hj => ?_
    have hj' := List.mem_range.1 hj
    have hcol : ∃ v, IsColumn field j v := by
      cases field with
      | vec w =>
        have : j < 1 := hj'
        exact ⟨w, by omega, rfl⟩
      | mat n c f => exact ⟨List.ofFn fun i => f i ⟨j, hj'⟩, hj', by simp, fun i => by simp⟩
    obtain ⟨v, hc⟩ := hcol
    exact ⟨hp, ⟨v, column_eq hc hone, hv j v hc⟩, by omega, by omega, by omega⟩

/-- A result table with its window labels. -/
theorem plotIn_spec {n c : ℕ} {els : List (List ℤ)} {title labels : List String} (hl : labels.Nodup)
    {f : Fin n → Fin c → K} {st st' : State K} (ht : Tidy st)
    (h : plotIn els title labels (some f) st = .ok st') :
    Tidy st' ∧ (∀ (j : Fin c) l, labels[(j : ℕ)]? = some l → ∃ t tris, title[(j : ℕ)]? = some t ∧
      Post.mesh2tri n els = .ok tris ∧
      Shows st' (.label l) = some ((Shows st (.label l)).getD [] ++ [⟨tris, List.ofFn fun i => f i j, t⟩])) ∧
    ∀ l ∉ labels, Shows st' (.label l) = Shows st (.label l) := by
  obtain ⟨tris, h1, h2, h3, h4⟩ := C107_draws ht (Or.inr ⟨labels, rfl, hl⟩) h
  refine ⟨h2, ?_, ?_⟩
  · intro j l hjl
    obtain ⟨key, t, v, c1, c2, -, c3, c4⟩ := h3 j j.2
    rw [List.getElem?_map, hjl, Option.map_some, Option.some.injEq] at c1
    subst c1
    obtain ⟨hj, e1, e2⟩ := c3
    have : v = List.ofFn fun i => f i j := by
      apply List.ext_getElem?
      intro i
      by_cases hi : i < n
      · rw [e2 ⟨i, hi⟩]
        simp [hi]
      · rw [List.getElem?_eq_none (by omega), List.getElem?_eq_none (by simp; omega)]
    subst this
    exact ⟨t, tris, c2 _ rfl, h1, c4⟩
  · intro l hl'
    refine shows_of_filter (q := fun f => decide (Called (.label l) f)) (h4 _ ?_) fun f hf => decide_eq_true hf
    intro g hg key hkey hc
    have hkey' := List.mem_of_mem_take hkey
    obtain ⟨l', hl1, rfl⟩ := List.mem_map.1 hkey'
    have e1 : g.label = l := of_decide_eq_true hg
    have e2 : g.label = l' := hc
    exact hl' (e1 ▸ e2 ▸ hl1)

/-- C107.  `fields_plot` draws the two displacements, and the strains and stresses if given, in windows with these labels, each
its own; so a second run draws over the windows of the first.  Windows with other labels show what they did. -/
theorem C107_fields {st st' : State K} (ht : Tidy st) {els : List (List ℤ)} {nn : ℕ} {disp : Fin nn → Fin 2 → K}
    {strains stresses : Option (Fin nn → Fin 3 → K)} (h : Plot.fieldsPlot st els nn disp strains stresses = .ok st')
    (hs : ¬ ∃ el ∈ els, el[1]? = some 5 ∨ el[1]? = some 6 ∨ el[1]? = some 7) :
    ∃ tris, Post.mesh2tri nn els = .ok tris ∧ Tidy st' ∧
    (∀ j : Fin 2, ∃ t, Shows st' (.label (![ "Horizontal displacement", "Vertical displacement"] j)) =
      some ((Shows st (.label (![ "Horizontal displacement", "Vertical displacement"] j))).getD [] ++
        [⟨tris, List.ofFn fun i => disp i j, t⟩])) ∧
    (∀ e, strains = some e → ∀ j : Fin 3, ∃ t,
      Shows st' (.label (![ "Strain epsilon-xx", "Strain epsilon-yy", "Strain gamma-xy"] j)) =
      some ((Shows st (.label (![ "Strain epsilon-xx", "Strain epsilon-yy", "Strain gamma-xy"] j))).getD [] ++
        [⟨tris, List.ofFn fun i => e i j, t⟩])) ∧
    (∀ e, stresses = some e → ∀ j : Fin 3, ∃ t,
      Shows st' (.label (![ "Stress sigma-xx", "Stress sigma-yy", "Stress tau-xy"] j)) =
      some ((Shows st (.label (![ "Stress sigma-xx", "Stress sigma-yy", "Stress tau-xy"] j))).getD [] ++
        [⟨tris, List.ofFn fun i => e i j, t⟩])) ∧
    ∀ l, l ∉ ["Horizontal displacement", "Vertical displacement"] →
      (strains.isSome → l ∉ ["Strain epsilon-xx", "Strain epsilon-yy", "Strain gamma-xy"]) →
      (stresses.isSome → l ∉ ["Stress sigma-xx", "Stress sigma-yy", "Stress tau-xy"]) →
      Shows st' (.label l) = Shows st (.label l) := by
  have hd : dispLabels.Nodup := by decide
  have he : strainLabels.Nodup := by decide
  have hg : stressLabels.Nodup := by decide
  unfold Plot.fieldsPlot at h
  rw [if_neg] at h
  swap
  · intro hc
    apply hs
    unfold Post.hasType at hc
    rw [Bool.or_eq_true, Bool.or_eq_true, List.any_eq_true, List.any_eq_true, List.any_eq_true] at hc
    rcases hc with (⟨el, h1, h2⟩ | ⟨el, h1, h2⟩) | ⟨el, h1, h2⟩
    · exact ⟨el, h1, Or.inl (of_decide_eq_true h2)⟩
    · exact ⟨el, h1, Or.inr (Or.inl (of_decide_eq_true h2))⟩
    · exact ⟨el, h1, Or.inr (Or.inr (of_decide_eq_true h2))⟩
  obtain ⟨s1, h1, h⟩ := bind_ok.1 h
  obtain ⟨s2, h2, h3⟩ := bind_ok.1 h
  obtain ⟨a1, a2, a3⟩ := plotIn_spec hd ht h1
  obtain ⟨t0, tris, -, htri, -⟩ := a2 0 _ rfl
  have step2 : Tidy s2 ∧ (∀ e, strains = some e → ∀ j : Fin 3, ∀ l, strainLabels[(j : ℕ)]? = some l → ∃ t,
      Shows s2 (.label l) = some ((Shows s1 (.label l)).getD [] ++ [⟨tris, List.ofFn fun i => e i j, t⟩])) ∧
      ∀ l, (strains.isSome → l ∉ strainLabels) → Shows s2 (.label l) = Shows s1 (.label l) := by
    cases strains with
    | none =>
      have := Except.ok.inj h2
      subst this
      exact ⟨a1, by simp, fun _ _ => rfl⟩
    | some e =>
      obtain ⟨b1, b2, b3⟩ := plotIn_spec he a1 h2
      refine ⟨b1, ?_, fun l hl => b3 l (hl rfl)⟩
      intro e' he' j l hl
      obtain rfl := Option.some.inj he'
      obtain ⟨t, tris', -, c2, c3⟩ := b2 j l hl
      rw [htri] at c2
      obtain rfl := Except.ok.inj c2
      exact ⟨t, c3⟩
  have step3 : Tidy st' ∧ (∀ e, stresses = some e → ∀ j : Fin 3, ∀ l, stressLabels[(j : ℕ)]? = some l → ∃ t,
      Shows st' (.label l) = some ((Shows s2 (.label l)).getD [] ++ [⟨tris, List.ofFn fun i => e i j, t⟩])) ∧
      ∀ l, (stresses.isSome → l ∉ stressLabels) → Shows st' (.label l) = Shows s2 (.label l) := by
    cases stresses with
    | none =>
      have := Except.ok.inj h3
      subst this
      exact ⟨step2.1, by simp, fun _ _ => rfl⟩
    | some e =>
      obtain ⟨b1, b2, b3⟩ := plotIn_spec hg step2.1 h3
      refine ⟨b1, ?_, fun l hl => b3 l (hl rfl)⟩
      intro e' he' j l hl
      obtain rfl := Option.some.inj he'
      obtain ⟨t, tris', -, c2, c3⟩ := b2 j l hl
      rw [htri] at c2
      obtain rfl := Except.ok.inj c2
      exact ⟨t, c3⟩
  obtain ⟨-, b2, b3⟩ := step2
  obtain ⟨c1, c2, c3⟩ := step3
  refine ⟨tris, htri, c1, ?_, ?_, ?_, ?_⟩
  · intro j
    have hl : dispLabels[(j : ℕ)]? = some (![ "Horizontal displacement", "Vertical displacement"] j) := by
      fin_cases j <;> rfl
    obtain ⟨t, tris', -, d2, d3⟩ := a2 j _ hl
    rw [htri] at d2
    obtain rfl := Except.ok.inj d2
    refine ⟨t, ?_⟩
    rw [c3 _ fun _ => ?_, b3 _ fun _ => ?_, d3]
    · fin_cases j <;> simp [strainLabels]
    · fin_cases j <;> simp [stressLabels]
  · intro e hE j
    have hl : strainLabels[(j : ℕ)]? = some (![ "Strain epsilon-xx", "Strain epsilon-yy", "Strain gamma-xy"] j) := by
      fin_cases j <;> rfl
    obtain ⟨t, d⟩ := b2 e hE j _ hl
    refine ⟨t, ?_⟩
    rw [c3 _ fun _ => ?_, d, a3 _ ?_]
    · fin_cases j <;> simp [dispLabels]
    · fin_cases j <;> simp [stressLabels]
  · intro e hE j
    have hl : stressLabels[(j : ℕ)]? = some (![ "Stress sigma-xx", "Stress sigma-yy", "Stress tau-xy"] j) := by
      fin_cases j <;> rfl
    obtain ⟨t, d⟩ := c2 e hE j _ hl
    refine ⟨t, ?_⟩
    rw [d, b3 _ fun _ => ?_, a3 _ ?_]
    · fin_cases j <;> simp [dispLabels]
    · fin_cases j <;> simp [strainLabels]
  · intro l h1 h2 h3
    rw [c3 l h3, b3 l h2, a3 l h1]

/-- A quadrilateral, two fields, no window open: windows 1 and 2; with window 2 open, the first field is drawn over it. -/
def pyplot0 : State ℚ := ⟨[], 0, []⟩
def pyplot2 : State ℚ := ⟨[⟨2, "", [⟨[], [], "mine"⟩]⟩], 2, []⟩
def unitQuad : List (List ℤ) := [[0, 1, 0, 0, 1, 2, 3]]
def twoFields : Fin 4 → Fin 2 → ℚ := fun i j => i + 10 * j

example : Tidy pyplot0 ∧ Tidy pyplot2 ∧
    plotNodeField pyplot0 (.mat 4 2 twoFields) 4 unitQuad =
      .ok ⟨[⟨1, "", [⟨[[0, 1, 2], [2, 3, 0]], [0, 1, 2, 3], ""⟩]⟩,
            ⟨2, "", [⟨[[0, 1, 2], [2, 3, 0]], [10, 11, 12, 13], ""⟩]⟩], 2, []⟩ ∧
    plotNodeField pyplot2 (.mat 4 2 twoFields) 4 unitQuad =
      .ok ⟨[⟨2, "", [⟨[], [], "mine"⟩, ⟨[[0, 1, 2], [2, 3, 0]], [0, 1, 2, 3], ""⟩]⟩,
            ⟨3, "", [⟨[[0, 1, 2], [2, 3, 0]], [10, 11, 12, 13], ""⟩]⟩], 3, []⟩ ∧
    plotNodeField pyplot0 (.mat 4 1 fun i _ => (i : ℚ)) 4 unitQuad = .error .valueError ∧
    plotNodeField pyplot0 (.vec [0, 1, 2, (3 : ℚ)]) 4 unitQuad (pltType := "surface") = .error .unboundLocal := by
  refine ⟨by unfold Tidy pyplot0; decide, by unfold Tidy pyplot2; decide, ?_, ?_, ?_, ?_⟩ <;> decide +kernel

example : (Plot.fieldsPlot pyplot0 unitQuad 4 twoFields none none).isOk = true ∧
    ((Plot.fieldsPlot pyplot0 unitQuad 4 twoFields none none).bind fun st =>
      Plot.fieldsPlot st unitQuad 4 twoFields none none).map (fun st => st.figs.map fun f => (f.num, f.label, f.drawn.length)) =
      .ok [(1, "Horizontal displacement", 2), (2, "Vertical displacement", 2)] := by
  constructor <;> decide +kernel

end SolidsPy
