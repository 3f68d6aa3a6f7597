import Verif.Spec.Machine
import Verif.Lemmas.CollFail
/-!
# The abstract machine is deterministic up to the order of segments
-/

namespace PolyColl
namespace Spec
open State
variable {V : Type}

/-- The same types with the same elements, in whatever order. -/
structure State.Alike (a b : State V) : Prop where
  nodup : a.types.Nodup
  nodup' : b.types.Nodup
  types : ∀ t, t ∈ a.types ↔ t ∈ b.types
  elems : ∀ t, a.elemsOf t = b.elemsOf t

theorem State.Alike.hintPos {a b : State V} (h : Alike a b) (t : Ty) (p : Pos) : a.hintPos t p = b.hintPos t p := by
  unfold State.hintPos
  cases p with
  | none => simp only [h.elems]
  | some q => simp only [h.elems]

theorem State.update_nodup {s : State V} {t : Ty} {f : List V → List V} (h : s.types.Nodup) : (s.update t f).types.Nodup := by
  rw [update_types]; exact h

theorem State.update_elems {s : State V} {t : Ty} {f : List V → List V} (u : Ty) :
    (s.update t f).elemsOf u = if u = t ∧ u ∈ s.types then f (s.elemsOf u) else s.elemsOf u := by
  by_cases ht : t ∈ s.types
  · rw [update_elemsOf ht]
    by_cases hu : u = t
    · rw [if_pos hu, if_pos ⟨hu, hu ▸ ht⟩]
    · rw [if_neg hu, if_neg (fun h : u = t ∧ u ∈ s.types => hu h.1)]
  · rw [if_neg (fun h : u = t ∧ u ∈ s.types => ht (h.1 ▸ h.2))]
    unfold State.elemsOf
    rw [update_get]
    by_cases e : u = t
    · rw [if_pos e, get_none.2 (e ▸ ht)]
      rfl
    · rw [if_neg e]

theorem State.Alike.update {a b : State V} (h : Alike a b) (t : Ty) (f : List V → List V) : Alike (a.update t f) (b.update t f) := by
  refine ⟨update_nodup h.nodup, update_nodup h.nodup', fun u => ?_, fun u => ?_⟩
  · rw [update_types, update_types]; exact h.types u
  · rw [update_elems, update_elems, h.elems]
    simp only [h.types]

theorem State.cleared_elems (s : State V) (t : Ty) : s.cleared.elemsOf t = [] := by
  induction s with
  | nil => rfl
  | cons x s ih =>
    obtain ⟨u, l⟩ := x
    simp only [State.cleared, List.map_cons, State.elemsOf, State.get, List.lookup]
    split
    · rename_i m h
      split at h
      · cases h; rfl
      · have := ih
        unfold State.elemsOf State.get State.cleared at this
        rw [h] at this
        exact this
    · rfl

theorem State.perm_alike {a b : State V} (h : a.Perm b) (hb : b.types.Nodup) : Alike a b := by
  have ha : a.types.Nodup := ((h.map Prod.fst).nodup_iff).2 hb
  refine ⟨ha, hb, fun t => (h.map Prod.fst).mem_iff, fun t => ?_⟩
  by_cases ht : t ∈ b.types
  · obtain ⟨⟨u, l⟩, hl, rfl⟩ := List.mem_map.1 ht
    rw [elemsOf_mem hb hl, elemsOf_mem ha (h.mem_iff.2 hl)]
  · rw [elemsOf_none ht, elemsOf_none (fun h' => ht ((h.map Prod.fst).mem_iff.1 h'))]

theorem State.Alike.symm {a b : State V} (h : Alike a b) : Alike b a :=
  ⟨h.nodup', h.nodup, fun t => (h.types t).symm, fun t => (h.elems t).symm⟩

theorem State.Alike.trans {a b c : State V} (h : Alike a b) (h' : Alike b c) : Alike a c :=
  ⟨h.nodup, h'.nodup', fun t => (h.types t).trans (h'.types t), fun t => (h.elems t).trans (h'.elems t)⟩

theorem State.Put.nodup {t : Ty} {k : Nat} {vs : List V} {s s' : State V} (h : s.Put t k vs s') (hs : s.types.Nodup) : s'.types.Nodup := by
  obtain ⟨s1, h1, rfl⟩ := h
  exact update_nodup (h1.nodup hs)

/-- The change looks at no order of segments. -/
def Change.OrderFree : Change V → Prop
  | .eraseSpan _ _ => False
  | _ => True

/-- The request looks at no order of segments. -/
def Request.OrderFree : Request V → Prop
  | .on _ ch => ch.OrderFree
  | _ => True

theorem Change.Does.alike {ch : Change V} (ho : ch.OrderFree) {a a' b b' : State V} (h : Alike a b) (ha : ch.Does a a') (hb : ch.Does b b') :
    Alike a' b' := by
  cases ch with
  | keep => cases ha; cases hb; exact h
  | register ts =>
    have ha : State.Registered ts a a' := ha
    have hb : State.Registered ts b b' := hb
    exact ⟨ha.nodup h.nodup, hb.nodup h.nodup', fun t => by rw [ha.types, hb.types, h.types], fun t => by rw [ha.elems, hb.elems, h.elems]⟩
  | insert t k vs =>
    refine ⟨ha.2.nodup h.nodup, hb.2.nodup h.nodup', fun u => by rw [ha.2.types, hb.2.types, h.types], fun u => ?_⟩
    rw [ha.2.elemsOf h.nodup, hb.2.elemsOf h.nodup', h.elems, h.elems]
  | insertEach p l =>
    have ha : State.Grown _ l a a' := ha
    have hb : State.Grown _ l b b' := hb
    refine ⟨ha.nodup h.nodup, hb.nodup h.nodup', fun u => by rw [ha.types, hb.types, h.types], fun u => ?_⟩
    rw [ha.elems, hb.elems, h.elems, h.hintPos]
  | erase t i j => cases ha; cases hb; exact h.update _ _
  | eraseSpan => exact ho.elim
  | clear =>
    cases ha; cases hb
    refine ⟨?_, ?_, fun t => ?_, fun t => ?_⟩
    · rw [cleared_types]; exact h.nodup
    · rw [cleared_types]; exact h.nodup'
    · rw [cleared_types, cleared_types]; exact h.types t
    · rw [cleared_elems, cleared_elems]
  | clearOf t => cases ha; cases hb; exact h.update _ _
  | modify t k f g => cases ha; cases hb; exact h.update _ _

theorem Request.Does.alike {r : Request V} (ho : r.OrderFree) {A A' B B' : Nat → State V} (h : ∀ i, Alike (A i) (B i)) (ha : r.Does A A')
    (hb : r.Does B B') : ∀ i, Alike (A' i) (B' i) := by
  intro x
  by_cases hx : x ∉ r.concerns
  · rw [ha.1 x hx, hb.1 x hx]; exact h x
  replace hx : x ∈ r.concerns := Classical.not_not.1 hx
  have empty : Alike ([] : State V) [] := ⟨List.nodup_nil, List.nodup_nil, fun _ => Iff.rfl, fun _ => rfl⟩
  have perm : ∀ {a b a' b' : State V}, Alike a b → a'.Perm a → b'.Perm b → Alike a' b' := fun h p q =>
    ((perm_alike p h.nodup).trans h).trans (perm_alike q h.nodup').symm
  obtain ⟨-, ha⟩ := ha
  obtain ⟨-, hb⟩ := hb
  cases r with
  | on i ch =>
    have e : x = i := by simpa [concerns] using hx
    subst e
    exact Change.Does.alike ho (h x) ha hb
  | make i l =>
    have e : x = i := by simpa [concerns] using hx
    subst e
    have ha : Appended l [] (A' x) := ha
    have hb : Appended l [] (B' x) := hb
    exact ⟨ha.nodup List.nodup_nil, hb.nodup List.nodup_nil, fun t => by rw [State.Grown.types ha, State.Grown.types hb], fun t => by rw [ha.elems, hb.elems]⟩
  | copy i j =>
    have e : x = i := by simpa [concerns] using hx
    subst e
    exact perm (h j) ha hb
  | assign i j =>
    have e : x = i := by simpa [concerns] using hx
    subst e
    exact perm (h j) ha hb
  | move i j =>
    by_cases e : x = i
    · subst e; exact perm (h j) ha.1 hb.1
    · have e : x = j := by simpa [concerns, e] using hx
      subst e
      rw [ha.2, hb.2]
      exact empty
  | moveAssign i j =>
    by_cases e : x = i
    · subst e; exact perm (h j) ha.1 hb.1
    · have e' : x = j := by simpa [concerns, e] using hx
      subst e'
      rw [ha.2 (Ne.symm e), hb.2 (Ne.symm e)]
      exact empty
  | swap i j =>
    by_cases e : x = i
    · subst e; rw [ha.1, hb.1]; exact h j
    · have e' : x = j := by simpa [concerns, e] using hx
      subst e'
      rw [ha.2, hb.2]; exact h i

/-- Two executions of the same requests end with the same types and elements. -/
theorem Trace.alike {l : List (Request V × Bool)} (hl : ∀ x ∈ l, x.2 = true ∧ x.1.OrderFree) {A B : Nat → State V} (ha : Trace l A)
    (hb : Trace l B) : ∀ i, Alike (A i) (B i) := by
  induction ha generalizing B with
  | start =>
    generalize hn : ([] : List (Request V × Bool)) = l0 at hb
    cases hb with
    | start => exact fun _ => ⟨List.nodup_nil, List.nodup_nil, fun _ => Iff.rfl, fun _ => rfl⟩
    | ok => simp at hn
    | exc => simp at hn
  | @ok l S S' h r hd ih =>
    generalize hn : l ++ [(r, true)] = l0 at hb
    cases hb with
    | start => simp at hn
    | ok h' r' hd' =>
      obtain ⟨rfl, e⟩ := List.append_inj' hn rfl
      cases e
      exact Request.Does.alike (hl (r, true) (by simp)).2 (ih (fun x hx => hl x (by simp [hx])) h') hd hd'
    | exc h' r' hf' =>
      obtain ⟨rfl, e⟩ := List.append_inj' hn rfl
      cases e
  | @exc l S S' h r hf ih => exact absurd (hl (r, false) (by simp)).1 (by simp)

end Spec
end PolyColl
