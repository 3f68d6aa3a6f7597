import Verif.Lemmas.State
/-! # Positions and ranks -/

namespace PolyColl
namespace Spec
namespace State
variable {V : Type}

theorem flat_append (a b : State V) : flat (a ++ b) = a.flat ++ b.flat := by simp [flat]

theorem flat_cons (p : Ty × List V) (b : State V) : flat (p :: b) = p.2 ++ b.flat := by simp [flat]

@[simp] theorem flat_nil : flat ([] : State V) = [] := rfl

/-- A registered type splits the state. -/
theorem split_of_mem {s : State V} {t : Ty} (h : t ∈ s.types) : ∃ pre l post, s = pre ++ (t, l) :: post ∧ t ∉ types pre := by
  induction s with
  | nil => simp [types] at h
  | cons p s ih =>
    obtain ⟨u, m⟩ := p
    by_cases e : u = t
    · subst e; exact ⟨[], m, s, rfl, by simp [types]⟩
    · have : t ∈ types s := by
        simp only [types, List.map_cons, List.mem_cons] at h
        rcases h with h | h
        · exact absurd h.symm e
        · exact h
      obtain ⟨pre, l, post, rfl, hn⟩ := ih this
      refine ⟨(u, m) :: pre, l, post, rfl, ?_⟩
      simp only [types, List.map_cons, List.mem_cons, not_or]
      exact ⟨fun h => e h.symm, hn⟩

theorem get_split {pre post : State V} {t : Ty} {l : List V} (h : t ∉ types pre) : get (pre ++ (t, l) :: post) t = some l := by
  induction pre with
  | nil => simp [get]
  | cons p pre ih =>
    obtain ⟨u, m⟩ := p
    simp only [types, List.map_cons, List.mem_cons, not_or] at h
    have : (t == u) = false := by simpa using h.1
    simp only [get, List.cons_append, List.lookup_cons, this]
    exact ih h.2

theorem after_split {pre post : State V} {t : Ty} {l : List V} (h : t ∉ types pre) : after t (pre ++ (t, l) :: post) = post := by
  induction pre with
  | nil => simp [after]
  | cons p pre ih =>
    obtain ⟨u, m⟩ := p
    simp only [types, List.map_cons, List.mem_cons, not_or] at h
    simp only [List.cons_append, after, if_neg (fun e : u = t => h.1 e.symm)]
    exact ih h.2

theorem rank_split {pre post : State V} {t : Ty} {l : List V} {k : Nat} (h : t ∉ types pre) :
    rank (pre ++ (t, l) :: post) (some (t, k)) = pre.flat.length + k := by
  induction pre with
  | nil => simp [rank]
  | cons p pre ih =>
    obtain ⟨u, m⟩ := p
    simp only [types, List.map_cons, List.mem_cons, not_or] at h
    simp only [List.cons_append, rank, if_neg (fun e : u = t => h.1 e.symm), flat_cons, List.length_append]
    rw [ih h.2]
    omega

theorem update_split {pre post : State V} {t : Ty} {l : List V} (f : List V → List V) (h : t ∉ types pre) (h' : t ∉ types post) :
    update t f (pre ++ (t, l) :: post) = pre ++ (t, f l) :: post := by
  have key : ∀ s : State V, t ∉ types s → update t f s = s := by
    intro s hs
    unfold update
    refine (List.map_congr_left (g := id) ?_).trans (List.map_id _)
    intro p hp
    have : p.1 ≠ t := fun e => hs (e ▸ List.mem_map_of_mem hp)
    simp [this]
  have h1 := key pre h
  have h2 := key post h'
  unfold update at *
  simp [h1, h2]

theorem split_nodup {pre post : State V} {t : Ty} {l : List V} (h : types (pre ++ (t, l) :: post) |>.Nodup) :
    t ∉ types pre ∧ t ∉ types post := by
  simp only [types, List.map_append, List.map_cons, List.nodup_append, List.nodup_cons] at h
  refine ⟨fun e => h.2.2 t e t (by simp) rfl, h.2.1.1⟩

/-! ### The first position -/

theorem first_valid (s : State V) (hs : s.types.Nodup) : s.Valid s.first := by
  induction s with
  | nil => trivial
  | cons p s ih =>
    obtain ⟨u, l⟩ := p
    simp only [types, List.map_cons, List.nodup_cons] at hs
    unfold first
    by_cases e : l = []
    · simp only [e, if_true]
      have := ih hs.2
      cases hf : first s with
      | none => trivial
      | some q =>
        obtain ⟨t, k⟩ := q
        rw [hf] at this
        obtain ⟨m, h1, h2⟩ := this
        refine ⟨m, ?_, h2⟩
        have hne : t ≠ u := by
          rintro rfl
          exact hs.1 (by
            have := get_none (s := s) (t := t)
            by_cases hm : t ∈ types s
            · exact hm
            · rw [this.2 hm] at h1; simp at h1)
        have : (t == u) = false := by simpa using hne
        simp only [get, List.lookup_cons, this]
        exact h1
    · simp only [e, if_false]
      exact ⟨l, by simp [get], List.length_pos_iff.2 e⟩

theorem first_mem {s : State V} {t : Ty} {k : Nat} (h : s.first = some (t, k)) : t ∈ s.types ∧ k = 0 := by
  induction s with
  | nil => simp [first] at h
  | cons p s ih =>
    obtain ⟨u, l⟩ := p
    unfold first at h
    by_cases e : l = []
    · simp only [e, if_true] at h
      have := ih h
      exact ⟨by simp only [types, List.map_cons, List.mem_cons]; exact Or.inr this.1, this.2⟩
    · simp only [e, if_false, Option.some.injEq, Prod.mk.injEq] at h
      exact ⟨by simp [types, h.1], h.2.symm⟩

theorem rank_cons_ne {u t : Ty} {l : List V} {s : State V} {k : Nat} (h : u ≠ t) :
    rank ((u, l) :: s) (some (t, k)) = l.length + rank s (some (t, k)) := by simp [rank, h]

theorem rank_first {s : State V} (hs : s.types.Nodup) : s.rank s.first = 0 := by
  induction s with
  | nil => rfl
  | cons p s ih =>
    obtain ⟨u, l⟩ := p
    simp only [types, List.map_cons, List.nodup_cons] at hs
    unfold first
    by_cases e : l = []
    · subst e
      simp only [if_true]
      have := ih hs.2
      cases hf : first s with
      | none =>
        rw [hf] at this
        simpa [rank, flat_cons] using this
      | some q =>
        obtain ⟨t, k⟩ := q
        have hm := first_mem hf
        have hne : u ≠ t := by rintro rfl; exact hs.1 hm.1
        rw [rank_cons_ne hne, ← hf, this]
        rfl
    · simp [e, rank]

/-- Ranks in the rest of the state. -/
theorem rank_append {pre s : State V} {p : Pos} (h : ∀ t k, p = some (t, k) → t ∉ types pre) :
    rank (pre ++ s) p = pre.flat.length + rank s p := by
  induction pre with
  | nil => simp
  | cons a pre ih =>
    obtain ⟨u, l⟩ := a
    cases p with
    | none => simp [rank, flat_cons, flat_append]; omega
    | some q =>
      obtain ⟨t, k⟩ := q
      have hq := h t k rfl
      simp only [types, List.map_cons, List.mem_cons, not_or] at hq
      simp only [List.cons_append]
      rw [rank_cons_ne (fun e => hq.1 e.symm), ih]
      · simp [flat_cons]; omega
      · rintro t' k' ⟨⟩; exact hq.2

/-- The rank of a normalised position. -/
theorem rank_norm {s : State V} (hs : s.types.Nodup) {t : Ty} {l : List V} {k : Nat} (h : s.get t = some l) (hk : k ≤ l.length) :
    s.rank (s.norm t k) = s.rank (some (t, k)) := by
  have hm : t ∈ s.types := by
    by_cases hm : t ∈ s.types
    · exact hm
    · rw [get_none.2 hm] at h; simp at h
  obtain ⟨pre, l', post, rfl, hn⟩ := split_of_mem hm
  rw [get_split hn] at h
  cases h
  unfold norm
  rw [get_split hn]
  simp only
  split
  · rfl
  · have : k = l.length := by omega
    subst this
    rw [after_split hn, rank_split hn]
    have hn2 := hs
    simp only [types, List.map_append, List.map_cons, List.nodup_append, List.nodup_cons] at hn2
    have hpost : (types post).Nodup := hn2.2.1.2
    have h0 := rank_first hpost
    have := rank_append (pre := pre ++ [(t, l)]) (s := post) (p := first post) (by
      intro u j e
      have hu := (first_mem e).1
      intro hc
      simp only [types, List.map_append, List.map_cons, List.map_nil, List.mem_append, List.mem_singleton] at hc
      rcases hc with hc | hc
      · exact hn2.2.2 u hc u (by simp only [List.mem_cons]; exact Or.inr hu) rfl
      · subst hc; exact hn2.2.1.1 hu)
    simp only [List.append_assoc, List.singleton_append] at this
    rw [this, h0, flat_append, flat_cons]
    simp

theorem norm_valid {s : State V} (hs : s.types.Nodup) {t : Ty} {k : Nat} : s.Valid (s.norm t k) := by
  unfold norm
  cases hg : s.get t with
  | none => trivial
  | some l =>
    simp only
    split
    · rename_i h; exact ⟨l, hg, h⟩
    · have hm : t ∈ s.types := by
        by_cases hm : t ∈ s.types
        · exact hm
        · rw [get_none.2 hm] at hg; simp at hg
      obtain ⟨pre, l', post, rfl, hn⟩ := split_of_mem hm
      rw [after_split hn]
      have hn2 := hs
      simp only [types, List.map_append, List.map_cons, List.nodup_append, List.nodup_cons] at hn2
      have hv := first_valid post hn2.2.1.2
      cases hf : first post with
      | none => trivial
      | some q =>
        obtain ⟨u, j⟩ := q
        rw [hf] at hv
        obtain ⟨m, h1, h2⟩ := hv
        refine ⟨m, ?_, h2⟩
        have h1' := (get_some hn2.2.1.2).1 h1
        refine (get_some hs).2 ?_
        simp [h1']

/-- A valid position is that of the element of its rank. -/
theorem at_rank {s : State V} {p : Pos} (hp : s.Valid p) : s.flat[s.rank p]? = s.at? p := by
  cases p with
  | none => simp [rank, at?]
  | some q =>
    obtain ⟨t, k⟩ := q
    obtain ⟨l, h1, h2⟩ := hp
    have hm : t ∈ s.types := by
      by_cases hm : t ∈ s.types
      · exact hm
      · rw [get_none.2 hm] at h1; simp at h1
    obtain ⟨pre, l', post, rfl, hn⟩ := split_of_mem hm
    rw [get_split hn] at h1
    cases h1
    rw [rank_split hn, at?, get_split hn]
    simp only [Option.bind_some, flat_append, flat_cons]
    rw [List.getElem?_append_right (by omega), List.getElem?_append_left (by omega)]
    congr 1
    omega

theorem rank_lt {s : State V} {t : Ty} {k : Nat} (hp : s.Valid (some (t, k))) : s.rank (some (t, k)) < s.flat.length := by
  obtain ⟨l, h1, h2⟩ := hp
  have hm : t ∈ s.types := by
    by_cases hm : t ∈ s.types
    · exact hm
    · rw [get_none.2 hm] at h1; simp at h1
  obtain ⟨pre, l', post, rfl, hn⟩ := split_of_mem hm
  rw [get_split hn] at h1
  cases h1
  rw [rank_split hn]
  simp [flat_append, flat_cons]
  omega

theorem rank_le {s : State V} {p : Pos} (hp : s.Valid p) : s.rank p ≤ s.flat.length := by
  cases p with
  | none => simp [rank]
  | some q => exact Nat.le_of_lt (rank_lt hp)

/-- Positions of equal rank are equal. -/
theorem rank_inj {s : State V} {p q : Pos} (hp : s.Valid p) (hq : s.Valid q) (h : s.rank p = s.rank q) : p = q := by
  cases p with
  | none =>
    cases q with
    | none => rfl
    | some q => have := rank_lt hq; rw [← h] at this; simp [rank] at this
  | some p =>
    cases q with
    | none => have := rank_lt hp; rw [h] at this; simp [rank] at this
    | some q =>
      obtain ⟨t, k⟩ := p
      obtain ⟨u, j⟩ := q
      obtain ⟨l, h1, h2⟩ := hp
      obtain ⟨m, g1, g2⟩ := hq
      induction s with
      | nil => simp [get] at h1
      | cons a s ih =>
        obtain ⟨v, x⟩ := a
        simp only [get, List.lookup_cons] at h1 g1
        by_cases e1 : v = t <;> by_cases e2 : v = u
        · subst e1 e2; simp [rank] at h; rw [h]
        · subst e1
          have e2' : (u == v) = false := by simpa using fun e => e2 e.symm
          simp at h1; subst h1
          simp [rank, e2] at h; omega
        · subst e2
          have e1' : (t == v) = false := by simpa using fun e => e1 e.symm
          simp at g1; subst g1
          simp [rank, e1] at h; omega
        · have e1' : (t == v) = false := by simpa using fun e => e1 e.symm
          have e2' : (u == v) = false := by simpa using fun e => e2 e.symm
          simp only [e1'] at h1
          simp only [e2'] at g1
          rw [rank_cons_ne e1, rank_cons_ne e2] at h
          exact ih (by omega) h1 g1

/-- Every rank up to the size is that of a position. -/
theorem exists_rank {s : State V} (hs : s.types.Nodup) {r : Nat} (hr : r ≤ s.flat.length) : ∃ p, s.Valid p ∧ s.rank p = r := by
  by_cases he : r = s.flat.length
  · exact ⟨none, trivial, by simp [rank, he]⟩
  have hr : r < s.flat.length := by omega
  clear he
  induction s generalizing r with
  | nil => simp at hr
  | cons a s ih =>
    obtain ⟨u, l⟩ := a
    simp only [types, List.map_cons, List.nodup_cons] at hs
    by_cases h : r < l.length
    · exact ⟨some (u, r), ⟨l, by simp [get], h⟩, by simp [rank]⟩
    · rw [flat_cons, List.length_append] at hr
      simp only at hr
      obtain ⟨p, h1, h2⟩ := ih hs.2 (r := r - l.length) (by omega) (by omega)
      cases p with
      | none => simp [rank] at h2; omega
      | some q =>
        obtain ⟨t, k⟩ := q
        obtain ⟨m, g1, g2⟩ := h1
        have hne : t ≠ u := by
          rintro rfl
          have := (get_none (s := s) (t := t)).2 hs.1
          rw [this] at g1; simp at g1
        have : (t == u) = false := by simpa using hne
        refine ⟨some (t, k), ⟨m, ?_, g2⟩, ?_⟩
        · simp only [get, List.lookup_cons, this]; exact g1
        · rw [rank_cons_ne (Ne.symm hne), h2]; omega

/-! ### Effect of updates on the sequence of all elements -/

theorem flat_insertAt {s : State V} (hs : s.types.Nodup) {t : Ty} {k : Nat} {vs : List V} (ht : t ∈ s.types)
    (hk : k ≤ (s.elemsOf t).length) :
    (s.insertAt t k vs).flat = s.flat.take (s.rank (some (t, k))) ++ vs ++ s.flat.drop (s.rank (some (t, k))) := by
  obtain ⟨pre, l, post, rfl, hn⟩ := split_of_mem ht
  have h2 := (split_nodup hs).2
  unfold elemsOf at hk
  rw [get_split hn] at hk
  rw [insertAt, update_split _ hn h2, rank_split hn]
  simp only [flat_append, flat_cons]
  simp only at hk
  rw [List.take_append, List.take_of_length_le (l := pre.flat) (by omega), List.drop_append,
    List.drop_of_length_le (l := pre.flat) (by omega)]
  rw [show pre.flat.length + k - pre.flat.length = k by omega]
  rw [List.take_append_of_le_length hk, List.drop_append_of_le_length hk]
  simp

theorem removeRange_types (s : State V) : ∀ a b : Nat, (s.removeRange a b).types = s.types := by
  induction s with
  | nil => intro a b; rfl
  | cons p s ih =>
    intro a b
    obtain ⟨u, l⟩ := p
    simp only [removeRange, types, List.map_cons]
    have := ih (a - l.length) (b - l.length)
    simp only [types] at this
    rw [this]

theorem flat_removeRange (s : State V) : ∀ {a b : Nat}, a ≤ b → (s.removeRange a b).flat = s.flat.take a ++ s.flat.drop b := by
  induction s with
  | nil => intro a b h; simp [removeRange]
  | cons p s ih =>
    intro a b h
    obtain ⟨u, l⟩ := p
    simp only [removeRange, flat_cons, ih (show a - l.length ≤ b - l.length by omega), List.take_append, List.drop_append]
    by_cases h1 : a ≤ l.length
    · have : a - l.length = 0 := by omega
      simp [this]
    · have h2 : l.drop b = [] := List.drop_of_length_le (by omega)
      simp [h2]

theorem removeRange_self (s : State V) (a : Nat) : s.removeRange a a = s := by
  induction s generalizing a with
  | nil => rfl
  | cons p s ih => obtain ⟨u, l⟩ := p; simp [removeRange, ih]

theorem removeRange_zero_left {pre : State V} (s : State V) {a b : Nat} (h : pre.flat.length ≤ a) (hab : a ≤ b) :
    (pre ++ s).removeRange a b = pre ++ s.removeRange (a - pre.flat.length) (b - pre.flat.length) := by
  induction pre generalizing a b with
  | nil => simp
  | cons p pre ih =>
    obtain ⟨u, l⟩ := p
    rw [flat_cons, List.length_append] at h
    simp only at h
    simp only [List.cons_append, removeRange]
    rw [ih (by omega) (by omega), List.take_of_length_le (by omega), List.drop_of_length_le (by omega), flat_cons, List.length_append]
    simp only [List.append_nil, List.cons.injEq, true_and]
    congr 2 <;> omega

theorem removeRange_none (s : State V) : s.removeRange 0 0 = s := removeRange_self s 0

/-- Segments entirely inside the range are emptied. -/
theorem removeRange_mid {mid : State V} (s : State V) {b : Nat} (h : mid.flat.length ≤ b) :
    (mid ++ s).removeRange 0 b = mid.cleared ++ s.removeRange 0 (b - mid.flat.length) := by
  induction mid generalizing b with
  | nil => simp [cleared]
  | cons p mid ih =>
    obtain ⟨u, l⟩ := p
    rw [flat_cons, List.length_append] at h
    simp only at h
    simp only [List.cons_append, removeRange, cleared, List.map_cons]
    rw [show 0 - l.length = 0 by omega, ih (by omega), List.drop_of_length_le (by omega), flat_cons, List.length_append]
    simp only [List.take_zero, List.append_nil, List.cons.injEq, true_and]
    rw [cleared]
    congr 2
    omega

/-- A range inside one segment. -/
theorem removeRange_one {s : State V} (hs : s.types.Nodup) {t : Ty} {l : List V} {a b : Nat} (hg : s.get t = some l) (hab : a ≤ b)
    (hb : b ≤ l.length) :
    s.removeRange (s.rank (some (t, a))) (s.rank (some (t, b))) = s.update t (fun l => l.take a ++ l.drop b) := by
  have hm : t ∈ s.types := by
    by_cases hm : t ∈ s.types
    · exact hm
    · rw [get_none.2 hm] at hg; simp at hg
  obtain ⟨pre, l', post, rfl, hn⟩ := split_of_mem hm
  rw [get_split hn] at hg
  cases hg
  rw [rank_split hn, rank_split hn, update_split _ hn (split_nodup hs).2, removeRange_zero_left _ (by omega) (by omega)]
  simp only [removeRange]
  congr 1
  rw [show pre.flat.length + a - pre.flat.length = a by omega, show pre.flat.length + b - pre.flat.length = b by omega,
    show a - l.length = 0 by omega, show b - l.length = 0 by omega, removeRange_self]

theorem cleared_flat (s : State V) : s.cleared.flat = [] := by
  simp [cleared, flat]

theorem cleared_types (s : State V) : s.cleared.types = s.types := by
  simp [cleared, types, Function.comp_def]

end State
end Spec
end PolyColl
