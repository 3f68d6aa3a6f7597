import Verif.Spec.State
/-! # Facts about the specification of collections -/

namespace PolyColl
namespace Spec
namespace State
variable {V : Type}

theorem get_none {s : State V} {t : Ty} : s.get t = none ↔ t ∉ s.types := by
  unfold get types
  induction s with
  | nil => simp
  | cons p s ih =>
    obtain ⟨u, l⟩ := p
    rw [List.lookup_cons]
    by_cases h : t = u
    · simp [h]
    · have : (t == u) = false := by simpa using h
      simp [this, ih, h]

theorem get_some {s : State V} {t : Ty} {l : List V} (hs : s.types.Nodup) : s.get t = some l ↔ (t, l) ∈ s := by
  unfold get types at *
  induction s with
  | nil => simp
  | cons p s ih =>
    obtain ⟨u, m⟩ := p
    rw [List.lookup_cons]
    simp only [List.map_cons, List.nodup_cons] at hs
    by_cases h : t = u
    · subst h
      simp only [beq_self_eq_true, Option.some.injEq, List.mem_cons, Prod.mk.injEq, true_and]
      constructor
      · exact fun h => Or.inl h.symm
      · rintro (h | h)
        · exact h.symm
        · exact absurd (List.mem_map_of_mem (f := Prod.fst) h) hs.1
    · have : (t == u) = false := by simpa using h
      simp [this, ih hs.2, h]

theorem elemsOf_mem {s : State V} {t : Ty} {l : List V} (hs : s.types.Nodup) (h : (t, l) ∈ s) : s.elemsOf t = l := by
  unfold elemsOf
  rw [(get_some hs).2 h]

theorem elemsOf_none {s : State V} {t : Ty} (h : t ∉ s.types) : s.elemsOf t = [] := by
  unfold elemsOf
  rw [get_none.2 h]

theorem update_types (s : State V) (t : Ty) (f : List V → List V) : (s.update t f).types = s.types := by
  unfold update types
  rw [List.map_map]
  congr 1
  funext p
  simp only [Function.comp]
  split <;> rfl

theorem update_get (s : State V) (t u : Ty) (f : List V → List V) :
    (s.update t f).get u = if u = t then (s.get u).map f else s.get u := by
  unfold update get
  induction s with
  | nil => simp
  | cons p s ih =>
    obtain ⟨v, l⟩ := p
    simp only [List.map_cons]
    by_cases h1 : v = t
    · subst h1
      simp only [if_true]
      rw [List.lookup_cons, List.lookup_cons]
      by_cases h2 : u = v
      · subst h2; simp
      · have : (u == v) = false := by simpa using h2
        simp only [this, ih, if_neg h2]
    · simp only [if_neg h1]
      rw [List.lookup_cons, List.lookup_cons]
      by_cases h2 : u = v
      · subst h2; simp [h1]
      · have : (u == v) = false := by simpa using h2
        simp only [this, ih]

theorem update_elemsOf {s : State V} {t : Ty} (ht : t ∈ s.types) (f : List V → List V) (u : Ty) :
    (s.update t f).elemsOf u = if u = t then f (s.elemsOf u) else s.elemsOf u := by
  unfold elemsOf
  rw [update_get]
  by_cases h : u = t
  · subst h
    cases hg : s.get u with
    | none => exact absurd ht (get_none.1 hg)
    | some l => simp
  · simp [h]

theorem Ensure.mem {t : Ty} {s s' : State V} (h : Ensure t s s') : t ∈ s'.types := by
  rcases h with ⟨h1, rfl⟩ | ⟨h1, h2⟩
  · exact h1
  · exact (h2.map Prod.fst).mem_iff.2 (by simp)

theorem Ensure.types {t : Ty} {s s' : State V} (h : Ensure t s s') (u : Ty) : u ∈ s'.types ↔ u ∈ s.types ∨ u = t := by
  rcases h with ⟨h1, rfl⟩ | ⟨h1, h2⟩
  · constructor
    · exact Or.inl
    · rintro (h | rfl) <;> assumption
  · refine (h2.map Prod.fst).mem_iff.trans ?_
    simp only [List.map_cons, List.mem_cons]
    exact Or.comm

theorem Ensure.nodup {t : Ty} {s s' : State V} (h : Ensure t s s') (hs : s.types.Nodup) : s'.types.Nodup := by
  rcases h with ⟨h1, rfl⟩ | ⟨h1, h2⟩
  · exact hs
  · refine (h2.map Prod.fst).nodup_iff.2 ?_
    simp only [List.map_cons, List.nodup_cons]
    exact ⟨h1, hs⟩

theorem Ensure.elemsOf {t : Ty} {s s' : State V} (h : Ensure t s s') (hs : s.types.Nodup) (u : Ty) : s'.elemsOf u = s.elemsOf u := by
  have hn := h.nodup hs
  rcases h with ⟨h1, rfl⟩ | ⟨h1, h2⟩
  · rfl
  · by_cases hu : u ∈ s'.types
    · simp only [State.types, List.mem_map] at hu
      obtain ⟨⟨v, l⟩, hm, rfl⟩ := hu
      rw [elemsOf_mem hn hm]
      have := h2.mem_iff.1 hm
      rcases List.mem_cons.1 this with h | h
      · cases h; rw [elemsOf_none h1]
      · rw [elemsOf_mem hs h]
    · rw [elemsOf_none hu, elemsOf_none]
      intro hu'
      exact hu ((h2.map Prod.fst).mem_iff.2 (by simp only [List.map_cons, List.mem_cons]; exact Or.inr hu'))

/-- Insertion of elements of one type. -/
theorem Ensure.grown {t : Ty} {s s1 : State V} (h : Ensure t s s1) (hs : s.types.Nodup) {pos : Ty → Nat} {vs : List V} (hv : vs ≠ []) :
    Grown pos (vs.map fun v => (t, v)) s (s1.insertAt t (pos t) vs) := by
  refine ⟨fun u => ?_, fun u => ?_, fun hr => ?_, fun _ => ?_⟩
  · unfold insertAt
    rw [update_elemsOf h.mem, h.elemsOf hs]
    by_cases e : u = t
    · subst e
      have : vs.filter (fun _ => true) = vs := List.filter_eq_self.2 (by simp)
      simp [List.filter_map, Function.comp_def, this]
    · rw [if_neg e]
      have : (t = u) = False := by simp [Ne.symm e]
      have h2 : vs.filter (fun _ => false) = [] := List.filter_eq_nil_iff.2 (by simp)
      simp [List.filter_map, Function.comp_def, this, h2]
  · unfold insertAt
    rw [update_types, h.types]
    simp only [List.map_map, List.mem_map, Function.comp]
    constructor
    · rintro (h | rfl)
      · exact Or.inl h
      · obtain ⟨v, hv⟩ := List.exists_mem_of_ne_nil _ hv
        exact Or.inr ⟨v, hv, rfl⟩
    · rintro (h | ⟨v, _, rfl⟩)
      · exact Or.inl h
      · exact Or.inr rfl
  · unfold insertAt
    rw [update_types]
    rcases h with ⟨_, rfl⟩ | ⟨h1, _⟩
    · rfl
    · obtain ⟨v, hv⟩ := List.exists_mem_of_ne_nil _ hv
      exact absurd (hr (t, v) (List.mem_map_of_mem hv)) h1
  · unfold insertAt
    rw [update_types]
    exact h.nodup hs

theorem Grown.nil {pos : Ty → Nat} (s : State V) : Grown pos [] s s :=
  ⟨fun t => by simp, fun t => by simp, fun _ => rfl, id⟩

/-- One element, then more. -/
theorem Grown.cons {t : Ty} {v : V} {l : List (Ty × V)} {s s1 s2 : State V} {pos pos' : Ty → Nat} (h : Grown pos [(t, v)] s s1)
    (h' : Grown pos' l s1 s2) (hp : pos t ≤ (s.elemsOf t).length) (hpt : pos' t = pos t + 1) (hpu : ∀ u, u ≠ t → pos' u = pos u) :
    Grown pos ((t, v) :: l) s s2 := by
  refine ⟨fun u => ?_, fun u => ?_, fun hr => ?_, fun hn => h'.nodup (h.nodup hn)⟩
  · rw [h'.elems, h.elems]
    by_cases e : u = t
    · subst e
      have h1 : ((s.elemsOf u).take (pos u)).length = pos u := by simp [hp]
      simp only [List.filter_cons, decide_true, if_true, List.filter_nil, List.map_cons, List.map_nil, hpt]
      rw [List.take_append_of_le_length (by simp [h1]), List.drop_append_of_le_length (by simp [h1])]
      rw [List.take_of_length_le (by simp [h1]), List.drop_of_length_le (by simp [h1])]
      simp
    · have e' : (t = u) = False := by simp [Ne.symm e]
      simp [e', hpu u e]
  · rw [h'.types, h.types]
    simp only [List.map_cons, List.map_nil, List.mem_cons, List.not_mem_nil, or_false]
    exact or_assoc
  · rw [h'.order, h.order]
    · intro p hp; simp only [List.mem_singleton] at hp; subst hp; exact hr _ (by simp)
    · intro p hp
      rw [h.types]
      exact Or.inl (hr p (by simp [hp]))

theorem Grown.congr {l : List (Ty × V)} {s s' : State V} {pos pos' : Ty → Nat} (h : Grown pos l s s')
    (hp : ∀ t ∈ l.map Prod.fst, pos' t = pos t) : Grown pos' l s s' := by
  refine ⟨fun t => ?_, h.types, h.order, h.nodup⟩
  rw [h.elems]
  by_cases ht : t ∈ l.map Prod.fst
  · rw [hp t ht]
  · have : l.filter (fun p => p.1 = t) = [] := by
      rw [List.filter_eq_nil_iff]
      intro p hp
      simp only [decide_eq_true_eq]
      rintro rfl
      exact ht (List.mem_map_of_mem hp)
    simp [this]

/-- One element appended, then more. -/
theorem Appended.cons {t : Ty} {v : V} {l : List (Ty × V)} {s s1 s2 : State V} (h : Appended [(t, v)] s s1) (h' : Appended l s1 s2) :
    Appended ((t, v) :: l) s s2 := by
  have he : ∀ u, s1.elemsOf u = s.elemsOf u ++ if t = u then [v] else [] := by
    intro u
    rw [h.elems]
    by_cases e : t = u <;> simp [e]
  refine Grown.cons h h' (Nat.le_refl _) ?_ ?_
  · simp [he t]
  · intro u hu
    have : ¬ t = u := fun e => hu e.symm
    simp [he u, this]

theorem Appended.elems {l : List (Ty × V)} {s s' : State V} (h : Appended l s s') (t : Ty) :
    s'.elemsOf t = s.elemsOf t ++ (l.filter fun p => p.1 = t).map Prod.snd := by
  have := Grown.elems h t
  simpa using this

end State
end Spec
end PolyColl
