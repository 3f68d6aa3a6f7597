import Verif.Lemmas.Stays
/-! # What is thrown, and when -/

namespace PolyColl
open Prog

namespace Spec.State
variable {V : Type}

theorem Put.elemsOf {t : Ty} {k : Nat} {vs : List V} {s s' : State V} (h : Put t k vs s s') (hs : s.types.Nodup) (u : Ty) :
    s'.elemsOf u = if u = t then (s.elemsOf t).take k ++ vs ++ (s.elemsOf t).drop k else s.elemsOf u := by
  obtain ⟨s1, h1, rfl⟩ := h
  unfold insertAt
  rw [update_elemsOf h1.mem, h1.elemsOf hs]
  split
  · rename_i e; subst e; rfl
  · rfl

theorem Put.types {t : Ty} {k : Nat} {vs : List V} {s s' : State V} (h : Put t k vs s s') (u : Ty) :
    u ∈ s'.types ↔ u ∈ s.types ∨ u = t := by
  obtain ⟨s1, h1, rfl⟩ := h
  unfold insertAt
  rw [update_types]
  exact h1.types u

theorem Put.at {t : Ty} {k : Nat} {v : V} {s s' : State V} (h : Put t k [v] s s') (hs : s.types.Nodup) (hk : k ≤ (s.elemsOf t).length) :
    (s'.elemsOf t)[k]? = some v := by
  rw [h.elemsOf hs, if_pos rfl, List.append_assoc, List.getElem?_append_right (by simp; omega)]
  simp [Nat.min_eq_left hk]

end Spec.State

namespace Coll
variable {V : Type} (E : Env V)

theorem Inserted.put {c c' : Coll V} {w w' : World} {t : Ty} {k : Nat} {vs : List V} (h : Inserted E c w t k vs c' w')
    (hc : c.map.Inv E c.kind w) : Spec.State.Put t k vs c.abs c'.abs := h.abs E hc

theorem EnsFail.excFrom {c c' : Coll V} {w w' : World} {t : Ty} {e : Exc} {copies : Prop} (h : EnsFail E c w t e c' w') :
    ExcFrom E t copies (E.TooMany t ((c.abs.elemsOf t).length + 1)) e :=
  h.exc.mono (fun h => h.elim) (fun h => h.mono E (by omega))

theorem InsFail.exc {c c' : Coll V} {w w' : World} {t : Ty} {k : Nat} {copies : Prop} {e : Exc} (h : InsFail E c w t k copies e c' w')
    (hc : c.map.Inv E c.kind w) : ExcFrom E t copies (E.TooMany t ((c.abs.elemsOf t).length + 1)) e := by
  cases h with
  | reg h => exact h.excFrom E
  | seg ens h hk =>
    have := h.exc
    rw [ens.ty] at this
    refine this.mono id (fun h => ?_)
    rw [← ens.elems E hc]
    exact h

/-- An exception that insertion of `a` may throw. -/
def ArgExc (c : Coll V) (a : Arg V) (e : Exc) : Prop :=
  ExcFrom E (E.tiTy a.dyn) a.src.copies (E.TooMany (E.tiTy a.dyn) ((c.abs.elemsOf (E.tiTy a.dyn)).length + 1)) e ∨
  e = .unregistered (E.tiTy a.dyn) ∧ E.tiTy a.dyn ∉ c.abs.types ∧ ¬ (a.acc = true ∧ E.tiTy a.dyn = E.tiTy a.stat)

theorem ArgFail.exc {c c' : Coll V} {w w' : World} {a : Arg V} {k : Nat} {e : Exc} (h : ArgFail E c w a k e c' w')
    (hc : c.map.Inv E c.kind w) : ArgExc E c a e := by
  rcases h with h | ⟨h1, _, _, _, _, h2, h3⟩
  · exact Or.inl (h.exc E hc)
  · refine Or.inr ⟨h1, fun hm => ?_, h3⟩
    obtain ⟨n, hn, e⟩ := types_mem hm
    exact h2 n hn e

theorem Adds.length {c c' : Coll V} {w w' : World} {p p' : Spec.State.Pos} {l : List (Ty × V)} (h : Adds E c w p l c' w' p')
    (hc : c.Inv E w) (t : Ty) : (c'.abs.elemsOf t).length ≤ (c.abs.elemsOf t).length + l.length := by
  rw [(h.grown E hc).elems t]
  simp only [List.length_append, List.length_take, List.length_drop, List.length_map]
  have := List.length_filter_le (fun p : Ty × V => p.1 = t) l
  omega

theorem FromFail.exc {c c' : Coll V} {w w' : World} {p : Spec.State.Pos} {l : List (Ty × V)} {e : Exc} (h : FromFail E c w p l e c' w')
    (hc : c.Inv E w) : ∃ t ∈ l.map Prod.fst, ExcFrom E t True (E.TooMany t ((c.abs.elemsOf t).length + l.length)) e := by
  obtain ⟨j, c1, w1, p1, t, v, h1, h2, h3⟩ := h
  have hj : j < l.length := (List.getElem?_eq_some_iff.1 h1).1
  refine ⟨t, List.mem_map.2 ⟨(t, v), List.mem_of_getElem? h1, rfl⟩, ?_⟩
  refine (h3.exc E (h2.inv E hc).map).mono id (fun h => h.mono E ?_)
  have := h2.length E hc t
  simp only [List.length_take] at this
  omega

theorem SeqFail.exc {c c' : Coll V} {w w' : World} {p : Spec.State.Pos} {as : List (Arg V)} {vs : List V} {e : Exc}
    (h : SeqFail E c w p as vs e c' w') (hc : c.Inv E w) :
    ∃ a ∈ as, ExcFrom E (E.tiTy a.dyn) a.src.copies (E.TooMany (E.tiTy a.dyn) ((c.abs.elemsOf (E.tiTy a.dyn)).length + as.length)) e ∨
      e = .unregistered (E.tiTy a.dyn) ∧ E.tiTy a.dyn ∉ c.abs.types ∧ ¬ (a.acc = true ∧ E.tiTy a.dyn = E.tiTy a.stat) := by
  obtain ⟨j, c1, w1, p1, a, h1, h2, h3⟩ := h
  have hj : j < as.length := (List.getElem?_eq_some_iff.1 h1).1
  refine ⟨a, List.mem_of_getElem? h1, ?_⟩
  rcases h3.exc E (h2.inv E hc).map with h | ⟨h, h', h''⟩
  · refine Or.inl (h.mono id (fun h => h.mono E ?_))
    have := h2.length E hc (E.tiTy a.dyn)
    simp only [List.length_take] at this
    omega
  · refine Or.inr ⟨h, fun hm => h' ?_, h''⟩
    exact ((h2.grown E hc).types _).2 (Or.inl hm)

theorem TermFail.exc {c c' : Coll V} {w w' : World} {t : Ty} {fwd copies : Prop} {m : Nat} {e : Exc} (h : TermFail E c w t fwd copies m e c' w')
    (hc : c.map.Inv E c.kind w) (hm : 1 ≤ m) : ExcFrom E t copies (E.TooMany t ((c.abs.elemsOf t).length + m)) e := by
  cases h with
  | reg h => exact (h.excFrom E).mono id (fun h => h.mono E (by omega))
  | seg ens h =>
    have := h.exc
    rw [ens.ty] at this
    refine this.mono id (fun h => ?_)
    rw [← ens.elems E hc]
    exact h

/-- `insert` of an element whose type is not registered and cannot be: nothing happens. -/
theorem forArg_none (a : Arg V) (ha : Arg.OK E a) (c : Coll V) (w : World) (h : c.map.Inv E c.kind w)
    (ht : E.tiTy a.dyn ∉ c.abs.types) (hn : ¬ (a.acc = true ∧ E.tiTy a.dyn = E.tiTy a.stat)) :
    Runs (forArg E a) c w (fun _ _ _ => False)
      (fun e c' _ => c'.map.nodes = c.map.nodes ∧ (e = .unregistered (E.tiTy a.dyn) ∨ TMap.BadAlloc E e ∧ c' = c)) := by
  have none : ∀ n ∈ c.map.nodes, n.seg.ty ≠ E.tiTy a.dyn := fun n hn e => ht (e ▸ mem_types hn)
  unfold forArg
  simp only [runs_ite]
  refine ⟨fun hacc => ⟨fun hterm => absurd ⟨hacc, ha hterm⟩ hn, fun _ => ?_⟩, fun _ => ?_⟩
  · simp only [runs_bind, runs_ite, runs_pure, runs_raise]
    refine (find_runs E a.dyn c w h).mono ?_ (fun e c' w' ⟨h1, h2, _⟩ => ⟨by rw [h2], Or.inr ⟨h1, h2⟩⟩)
    rintro it c' w' ⟨a1, a2, a3, a4, a5⟩
    rcases a5 with ⟨⟨m, b1, b2⟩, -⟩ | ⟨b, -⟩
    · exact absurd b1.ty (none m (a3.nodes ▸ b2.mem))
    · refine ⟨fun h => absurd b h, fun _ => ⟨fun _ => ⟨a3.nodes, Or.inl (by trivial)⟩, fun he => absurd ⟨hacc, Classical.not_not.1 he⟩ hn⟩⟩
  · have := forInfo_runs E a.dyn c w h
    unfold forInfo at this
    simp only [runs_bind, runs_get] at this ⊢
    refine this.mono ?_ ?_
    · rintro it c' w' ⟨rfl, rfl, n, hr, ht⟩
      exact none n hr.mem ht
    · rintro e c' w' ⟨rfl, rfl, he, -⟩
      exact ⟨rfl, Or.inl he⟩

theorem insert_none (a : Arg V) (ha : Arg.OK E a) (c : Coll V) (w : World) (h : c.map.Inv E c.kind w)
    (ht : E.tiTy a.dyn ∉ c.abs.types) (hn : ¬ (a.acc = true ∧ E.tiTy a.dyn = E.tiTy a.stat)) :
    Runs (insert E a) c w (fun _ _ _ => False)
      (fun e c' _ => c'.map.nodes = c.map.nodes ∧ (e = .unregistered (E.tiTy a.dyn) ∨ TMap.BadAlloc E e ∧ c' = c)) := by
  unfold insert
  rw [runs_bind]
  exact (forArg_none E a ha c w h ht hn).mono (fun _ _ _ h => h.elim) (fun _ _ _ h => h)

theorem insertHint_none (hint : GIter) (a : Arg V) (ha : Arg.OK E a) (c : Coll V) (w : World) (h : c.map.Inv E c.kind w)
    (ht : E.tiTy a.dyn ∉ c.abs.types) (hn : ¬ (a.acc = true ∧ E.tiTy a.dyn = E.tiTy a.stat)) :
    Runs (insertHint E hint a) c w (fun _ _ _ => False)
      (fun e c' _ => c'.map.nodes = c.map.nodes ∧ (e = .unregistered (E.tiTy a.dyn) ∨ TMap.BadAlloc E e ∧ c' = c)) := by
  unfold insertHint
  rw [runs_bind]
  exact (forArg_none E a ha c w h ht hn).mono (fun _ _ _ h => h.elim) (fun _ _ _ h => h)

end Coll
end PolyColl
