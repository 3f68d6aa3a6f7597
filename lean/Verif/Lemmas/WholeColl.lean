import Verif.Lemmas.Whole
import Verif.Lemmas.CollRange
import Verif.Lemmas.Traverse
/-! # Whole collections: copies, moves, swap, equality -/

namespace PolyColl
open Prog

theorem All2.length {α β : Type} {R : α → β → Prop} {l : List α} {m : List β} (h : All2 R l m) : l.length = m.length := by
  induction h with
  | nil => rfl
  | cons _ _ ih => simp [ih]

namespace Env
variable {V : Type} (E : Env V)

/-- Exceptions of comparing elements of type `t`. -/
def EqExc (t : Ty) (e : Exc) (w w' : World) : Prop :=
  w'.tick ≠ w.tick ∧ e = .user ∧ (E.traits t).eqComparable = true ∧ (E.traits t).nothrowEq = false ∧ E.fault (w'.tick - 1) = true ∨
  e = .notEqualityComparable t ∧ (E.traits t).eqComparable = false

/-- Comparing at most `n` elements uses no memory. -/
def EqWorld (n : Nat) (w w' : World) : Prop := w'.next = w.next ∧ w.tick ≤ w'.tick ∧ w'.tick ≤ w.tick + n

theorem EqWorld.refl {n : Nat} {w : World} : EqWorld n w w := ⟨rfl, Nat.le_refl _, Nat.le_add_right _ _⟩

theorem EqWorld.le {m n : Nat} {w w' : World} (h : EqWorld m w w') (hm : m ≤ n) : EqWorld n w w' := ⟨h.1, h.2.1, by have := h.2.2; omega⟩

theorem EqWorld.trans {m n : Nat} {w w1 w2 : World} (h : EqWorld m w w1) (h' : EqWorld n w1 w2) : EqWorld (m + n) w w2 := by
  obtain ⟨h1, h2, h3⟩ := h
  obtain ⟨g1, g2, g3⟩ := h'
  exact ⟨g1.trans h1, Nat.le_trans h2 g2, by omega⟩

theorem EqExc.mono {n : Nat} {t : Ty} {e : Exc} {w w1 w2 : World} (h : EqExc E t e w1 w2) (h1 : EqWorld n w w1) (h2 : w1.tick ≤ w2.tick) : EqExc E t e w w2 := by
  rcases h with ⟨h, h'⟩ | h
  · exact Or.inl ⟨by have := h1.2.1; omega, h'⟩
  · exact Or.inr h

theorem eqElems_runs {X : Type} (t : Ty) (z : X) : ∀ (l m : List V) (w : World), l.length = m.length →
    Runs (E.eqElems t l m : Prog X Bool) z w
      (fun b z' w' => z' = z ∧ EqWorld l.length w w' ∧ (b = true ↔ All2 (fun x y => E.eqv x y = true) l m) ∧ (l ≠ [] → (E.traits t).eqComparable = true))
      (fun e z' w' => z' = z ∧ EqWorld l.length w w' ∧ EqExc E t e w w' ∧ l ≠ []) := by
  intro l
  induction l with
  | nil =>
    intro m w h
    cases m with
    | nil => exact ⟨rfl, .refl, ⟨fun _ => .nil, fun _ => rfl⟩, by simp⟩
    | cons => simp at h
  | cons x l ih =>
    intro m w h
    cases m with
    | nil => simp at h
    | cons y m =>
      simp only [eqElems, eqVH]
      rw [runs_bind, runs_ite]
      refine ⟨fun hc => ?_, fun hc => ⟨rfl, .refl, Or.inr ⟨rfl, by simpa using hc⟩, by simp⟩⟩
      have rest : ∀ w1, EqWorld 1 w w1 → Runs (if E.eqv x y = true then E.eqElems t l m else pure false : Prog X Bool) z w1
          (fun b z' w' => z' = z ∧ EqWorld (x :: l).length w w' ∧ (b = true ↔ All2 (fun x y => E.eqv x y = true) (x :: l) (y :: m)) ∧
            (x :: l ≠ [] → (E.traits t).eqComparable = true))
          (fun e z' w' => z' = z ∧ EqWorld (x :: l).length w w' ∧ EqExc E t e w w' ∧ x :: l ≠ []) := by
        intro w1 h1
        have hl : (x :: l).length = 1 + l.length := by simp [Nat.add_comm]
        rw [runs_ite]
        refine ⟨fun hb => ?_, fun hb => ⟨rfl, ?_, ⟨fun h => absurd h (by simp), fun h => ?_⟩, fun _ => hc⟩⟩
        · refine (ih m w1 (by simpa using h)).mono ?_ ?_
          · rintro b z' w' ⟨rfl, h2, h3, h4⟩
            refine ⟨rfl, hl ▸ h1.trans h2, ⟨fun h => .cons hb (h3.1 h), fun h => ?_⟩, fun _ => hc⟩
            cases h with
            | cons _ h => exact h3.2 h
          · rintro e z' w' ⟨rfl, h2, h3, h4⟩
            exact ⟨rfl, hl ▸ h1.trans h2, h3.mono E h1 h2.2.1, by simp⟩
        · exact hl ▸ h1.trans .refl
        · cases h with
          | cons h _ => exact absurd h hb
      simp only [runs_bind, runs_pure]
      unfold Runs Env.userOp
      by_cases hn : (E.traits t).nothrowEq = true
      · simp only [hn, if_true]
        exact rest w .refl
      · simp only [hn]
        by_cases hf : E.fault w.tick = true
        · simp only [hf, if_true]
          exact ⟨rfl, ⟨rfl, by simp, by simp⟩, Or.inl ⟨by simp, rfl, hc, by simpa using hn, by simpa using hf⟩, by simp⟩
        · simp only [hf]
          exact rest _ ⟨rfl, by simp, by simp⟩

end Env

namespace Seg
variable {V : Type} (E : Env V)

theorem equal_runs {X : Type} (x y : Seg V) (hk : x.kind = y.kind) (ht : x.ty = y.ty) (z : X) (w : World) :
    Runs (equal E x y : Prog X Bool) z w
      (fun b z' w' => z' = z ∧ Env.EqWorld x.elems.length w w' ∧ (b = true ↔ All2 (fun x y => E.eqv x y = true) x.elems y.elems) ∧
        (b = true → x.elems ≠ [] → (E.traits x.ty).eqComparable = true))
      (fun e z' w' => z' = z ∧ Env.EqWorld x.elems.length w w' ∧ E.EqExc x.ty e w w' ∧
        x.elems.length = y.elems.length ∧ x.elems ≠ []) := by
  have key : ∀ (t : Ty) (s s' : Vec V), Runs (E.eqVec t s s' : Prog X Bool) z w
      (fun b z' w' => z' = z ∧ Env.EqWorld s.elems.length w w' ∧ (b = true ↔ All2 (fun x y => E.eqv x y = true) s.elems s'.elems) ∧
        (b = true → s.elems ≠ [] → (E.traits t).eqComparable = true))
      (fun e z' w' => z' = z ∧ Env.EqWorld s.elems.length w w' ∧ E.EqExc t e w w' ∧
        s.elems.length = s'.elems.length ∧ s.elems ≠ []) := by
    intro t s s'
    simp only [Env.eqVec, runs_ite, runs_pure']
    refine ⟨fun h => ?_, fun h => ⟨by trivial, .refl, ⟨fun h => by simp at h, fun h' => absurd h'.length h⟩, fun h => by simp at h⟩⟩
    refine (E.eqElems_runs t z _ _ w h).mono ?_ ?_
    · rintro b z' w' ⟨rfl, h0, h1, h2⟩; exact ⟨rfl, h0, h1, fun _ => h2⟩
    · rintro e z' w' ⟨rfl, h0, h1, h2⟩; exact ⟨rfl, h0, h1, h, h2⟩
  obtain ⟨bx, sx⟩ := x
  obtain ⟨by', sy⟩ := y
  cases bx with
  | packed a =>
    cases by' with
    | packed b =>
      have ht : a.ty = b.ty := ht
      simp only [equal, if_pos ht, Packed.equal]
      exact key _ _ _
    | split b => cases hk
  | split a =>
    cases by' with
    | packed b => cases hk
    | split b =>
      have ht : a.ty = b.ty := ht
      simp only [equal, if_pos ht, Split.equal]
      exact key _ _ _

end Seg

namespace Spec.State
variable {V : Type}

theorem elemsOf_cons {t u : Ty} {l : List V} {s : State V} : elemsOf ((u, l) :: s) t = if u = t then l else elemsOf s t := by
  by_cases h : u = t
  · subst h; simp [elemsOf, get]
  · have : (t == u) = false := by simpa using fun h' => h h'.symm
    simp [elemsOf, get, List.lookup_cons, this, h]

/-- The total number of elements of some of the types. -/
def count (s : State V) : List Ty → Nat
  | [] => 0
  | t :: ts => (s.elemsOf t).length + count s ts

theorem count_le {s : State V} : ∀ (ts : List Ty), ts.Nodup → s.types.Nodup → s.count ts ≤ s.flat.length := by
  induction s with
  | nil => intro ts _ _; induction ts with
    | nil => simp [count]
    | cons t ts ih => simp [count, elemsOf, get]; simpa [flat] using ih (by simp_all)
  | cons p s ih =>
    obtain ⟨u, l⟩ := p
    intro ts hts hs
    simp only [types, List.map_cons, List.nodup_cons] at hs
    have key : ∀ ts : List Ty, ts.Nodup → count ((u, l) :: s) ts ≤ (if u ∈ ts then l.length else 0) + count s ts := by
      intro ts
      induction ts with
      | nil => simp [count]
      | cons t ts ih' =>
        intro hn
        have hn' := List.nodup_cons.1 hn
        have := ih' hn'.2
        simp only [count, elemsOf_cons]
        by_cases e : u = t
        · subst e
          simp only [if_true, List.mem_cons, true_or]
          simp only [hn'.1, if_false] at this
          omega
        · simp only [List.mem_cons, e, false_or, if_false]
          omega
    have h1 := key ts hts
    have h2 := ih ts hts hs.2
    simp only [flat_cons, List.length_append]
    split at h1 <;> omega

theorem count_all {s : State V} (hs : s.types.Nodup) : s.count s.types = s.flat.length := by
  have key : ∀ (pre : State V) (s : State V), (types (pre ++ s)).Nodup → count (pre ++ s) s.types = s.flat.length := by
    intro pre s
    induction s generalizing pre with
    | nil => intro _; rfl
    | cons p s ih =>
      intro h
      obtain ⟨u, l⟩ := p
      have h1 := ih (pre ++ [(u, l)]) (by simpa using h)
      simp only [List.append_assoc, List.singleton_append] at h1
      simp only [types, List.map_cons, count, flat_cons, List.length_append]
      have h2 : elemsOf (pre ++ (u, l) :: s) u = l := by
        have hn : u ∉ types pre := by
          simp only [types, List.map_append, List.map_cons] at h
          have := List.nodup_append.1 h
          intro hm
          exact this.2.2 u hm u (by simp) rfl
        simp [elemsOf, get_split hn]
      rw [h2]; simp only [types] at h1; omega
  simpa using key [] s hs

/-- Types outside a list have no elements if the list accounts for all of them. -/
theorem count_eq {s : State V} (hs : s.types.Nodup) {ts : List Ty} (hts : ts.Nodup) (h : s.count ts = s.flat.length) {t : Ty} (ht : t ∉ ts) :
    s.elemsOf t = [] := by
  have := count_le (s := s) (t :: ts) (List.nodup_cons.2 ⟨ht, hts⟩) hs
  simp only [count] at this
  exact List.length_eq_zero_iff.1 (by omega)

end Spec.State

namespace Coll
variable {V : Type} (E : Env V)

/-- Loop of `operator==`. -/
theorem eqLoop_runs {X : Type} (k : Kind) (x y : TMap V) (w0 : World) (hx : x.Inv E k w0) (hy : y.Inv E k w0) (z : X) :
    ∀ (l : List (Node V)) (s : Nat) (w : World), (∀ n ∈ l, n ∈ x.nodes) →
    Runs (eqLoop E y l s : Prog X (Option Nat)) z w
      (fun r z' w' => z' = z ∧ Env.EqWorld (l.map (fun n => n.seg.elems.length)).sum w w' ∧
        match r with
        | none => ∃ n ∈ l, ¬ All2 (fun x y => E.eqv x y = true) n.seg.elems (y.abs.elemsOf n.seg.ty)
        | some r => (∀ n ∈ l, All2 (fun x y => E.eqv x y = true) n.seg.elems (y.abs.elemsOf n.seg.ty) ∧
              (n.seg.elems ≠ [] → (E.traits n.seg.ty).eqComparable = true)) ∧
            r = s + (l.map (fun n => n.seg.elems.length)).sum)
      (fun e z' w' => z' = z ∧ Env.EqWorld (l.map (fun n => n.seg.elems.length)).sum w w' ∧ ∃ n ∈ l, E.EqExc n.seg.ty e w w' ∧
        n.seg.elems.length = (y.abs.elemsOf n.seg.ty).length ∧ n.seg.elems ≠ []) := by
  intro l
  induction l with
  | nil => intro s w _; exact ⟨rfl, .refl, by simp, by simp⟩
  | cons p l ih =>
    intro s w hl
    have hp := hl p (by simp)
    have hl' : ∀ n ∈ l, n ∈ x.nodes := fun n hn => hl n (by simp [hn])
    have rest : ∀ s' w1, Env.EqWorld p.seg.elems.length w w1 → (All2 (fun x y => E.eqv x y = true) p.seg.elems (y.abs.elemsOf p.seg.ty) ∧
          (p.seg.elems ≠ [] → (E.traits p.seg.ty).eqComparable = true)) → s' = s + p.seg.elems.length →
        Runs (eqLoop E y l s' : Prog X (Option Nat)) z w1
          (fun r z' w' => z' = z ∧ Env.EqWorld ((p :: l).map (fun n => n.seg.elems.length)).sum w w' ∧
            match r with
            | none => ∃ n ∈ p :: l, ¬ All2 (fun x y => E.eqv x y = true) n.seg.elems (y.abs.elemsOf n.seg.ty)
            | some r => (∀ n ∈ p :: l, All2 (fun x y => E.eqv x y = true) n.seg.elems (y.abs.elemsOf n.seg.ty) ∧
                  (n.seg.elems ≠ [] → (E.traits n.seg.ty).eqComparable = true)) ∧
                r = s + ((p :: l).map (fun n => n.seg.elems.length)).sum)
          (fun e z' w' => z' = z ∧ Env.EqWorld ((p :: l).map (fun n => n.seg.elems.length)).sum w w' ∧ ∃ n ∈ p :: l, E.EqExc n.seg.ty e w w' ∧
            n.seg.elems.length = (y.abs.elemsOf n.seg.ty).length ∧ n.seg.elems ≠ []) := by
      intro s' w1 h0 h1 h2
      have hsum : ((p :: l).map (fun n => n.seg.elems.length)).sum = p.seg.elems.length + (l.map (fun n => n.seg.elems.length)).sum := by simp
      refine (ih s' w1 hl').mono ?_ ?_
      · rintro r z' w' ⟨rfl, g, h3⟩
        refine ⟨rfl, hsum ▸ h0.trans g, ?_⟩
        cases r with
        | none => obtain ⟨n, hn, h4⟩ := h3; exact ⟨n, by simp [hn], h4⟩
        | some r =>
          refine ⟨fun n hn => ?_, ?_⟩
          · rcases List.mem_cons.1 hn with rfl | hn
            · exact h1
            · exact h3.1 n hn
          · rw [h3.2, h2]; simp [Nat.add_assoc]
      · rintro e z' w' ⟨rfl, g, n, hn, h4, h5⟩
        exact ⟨rfl, hsum ▸ h0.trans g, n, by simp [hn], h4.mono E h0 g.2.1, h5⟩
    simp only [eqLoop]
    have hf := TMap.findConst_found E hy p.key
    have hty := hx.ty p hp
    rw [runs_ite]
    refine ⟨fun hn => ?_, fun hn => ?_⟩
    · have hnot := hf.notin E hn
      have he : y.abs.elemsOf p.seg.ty = [] := by
        refine Spec.State.elemsOf_none ?_
        intro ht
        rw [TMap.abs_types] at ht
        obtain ⟨n, hn, e⟩ := List.mem_map.1 ht
        exact hnot n hn (by rw [← hy.ty n hn, ← hty]; exact e)
      rw [runs_ite]
      refine ⟨fun hs => ?_, fun hs => ?_⟩
      · refine ⟨rfl, .refl, p, by simp, ?_⟩
        rw [he]
        intro h
        have := h.length
        rw [Seg.size_eq] at hs
        exact hs this
      · have h0 : p.seg.elems = [] := by
          rw [Seg.size_eq] at hs
          exact List.length_eq_zero_iff.1 (by omega)
        exact rest _ _ .refl ⟨by rw [h0, he]; exact .nil, fun h => absurd h0 h⟩ (by rw [Seg.size_eq])
    · obtain ⟨n, hr, hk⟩ := hf.ref E hn
      rw [runs_bind, hr.node? E hy.ids, runs_some, runs_bind]
      have htn : n.seg.ty = p.seg.ty := by rw [hy.ty n hr.mem, hty]; exact hk
      have he : y.abs.elemsOf p.seg.ty = n.seg.elems := by
        have := TMap.abs_get E hy hr.mem
        rw [← htn]; simp [Spec.State.elemsOf, this]
      refine (Seg.equal_runs E p.seg n.seg (by rw [hx.kind p hp, hy.kind n hr.mem]) htn.symm z w).mono ?_ ?_
      · rintro b z' w' ⟨rfl, g, hb, hc⟩
        rw [runs_ite]
        refine ⟨fun h => rest _ _ g ⟨by rw [he]; exact hb.1 h, hc h⟩ (by rw [Seg.size_eq]), fun h => ?_⟩
        exact ⟨rfl, g.le (by simp), p, by simp, fun h' => h (hb.2 (by rw [← he]; exact h'))⟩
      · rintro e z' w' ⟨rfl, g, h1, h3, h4⟩
        exact ⟨rfl, g.le (by simp), p, by simp, h1, by rw [he]; exact h3, h4⟩

/-- Sum of sizes over nodes. -/
theorem sum_sizes {x : TMap V} (s : Spec.State V)
    (h : ∀ n ∈ x.nodes, n.seg.elems.length = (s.elemsOf n.seg.ty).length) :
    (x.nodes.map (fun n => n.seg.elems.length)).sum = s.count x.abs.types := by
  rw [TMap.abs_types]
  have : ∀ l : List (Node V), (∀ n ∈ l, n.seg.elems.length = (s.elemsOf n.seg.ty).length) →
      (l.map (fun n => n.seg.elems.length)).sum = s.count (l.map (fun n => n.seg.ty)) := by
    intro l
    induction l with
    | nil => intro _; rfl
    | cons n l ih =>
      intro h
      simp only [List.map_cons, List.sum_cons, Spec.State.count]
      rw [h n (by simp), ih (fun a ha => h a (by simp [ha]))]
  exact this _ h

theorem equal_runs {X : Type} (x y : Coll V) (w0 : World) (hx : x.map.Inv E x.kind w0) (hy : y.map.Inv E y.kind w0) (hk : x.kind = y.kind)
    (z : X) (w : World) :
    Runs (equal E x y : Prog X Bool) z w
      (fun b z' w' => z' = z ∧ Env.EqWorld x.size w w' ∧
        (b = true ↔ ∀ t, All2 (fun a b => E.eqv a b = true) (x.abs.elemsOf t) (y.abs.elemsOf t)) ∧
        (b = true → ∀ t, x.abs.elemsOf t ≠ [] → (E.traits t).eqComparable = true))
      (fun e z' w' => z' = z ∧ Env.EqWorld x.size w w' ∧ ∃ t, E.EqExc t e w w' ∧
        (x.abs.elemsOf t).length = (y.abs.elemsOf t).length ∧ x.abs.elemsOf t ≠ []) := by
  have helem : ∀ n ∈ x.map.nodes, x.abs.elemsOf n.seg.ty = n.seg.elems := by
    intro n hn
    have := TMap.abs_get E hx hn
    simp [Coll.abs, Spec.State.elemsOf, this]
  have hsz : (x.map.nodes.map (fun n => n.seg.elems.length)).sum = x.size := by
    unfold Coll.size
    simp only [Seg.size_eq]
  unfold equal
  rw [runs_bind]
  refine (eqLoop_runs E x.kind x.map y.map w0 hx (hk ▸ hy) z x.map.nodes 0 w (fun _ h => h)).mono ?_ ?_
  · rintro r z' w' ⟨rfl, g, h⟩
    rw [hsz] at g
    cases r with
    | none =>
      obtain ⟨n, hn, h⟩ := h
      refine ⟨rfl, g, ⟨fun h => by simp at h, fun h' => ?_⟩, fun h => by simp at h⟩
      exact absurd (helem n hn ▸ h' n.seg.ty) h
    | some r =>
      obtain ⟨h1, h2⟩ := h
      have hnx := abs_nodup' E hx
      have hny := abs_nodup' E hy
      have h3 := sum_sizes (x := x.map) y.abs (fun n hn => (h1 n hn).1.length)
      refine ⟨rfl, g, ?_, fun _ t ht => ?_⟩
      rotate_left
      · by_cases hm : t ∈ x.abs.types
        · obtain ⟨n, hn, rfl⟩ := types_mem hm
          exact (h1 n hn).2 (by rw [← helem n hn]; exact ht)
        · exact absurd (Spec.State.elemsOf_none hm) ht
      rw [decide_eq_true_iff, h2, h3, size_abs, Nat.zero_add]
      refine ⟨fun hc t => ?_, fun h => ?_⟩
      · by_cases ht : t ∈ x.abs.types
        · obtain ⟨n, hn, rfl⟩ := types_mem ht
          rw [helem n hn]; exact (h1 n hn).1
        · rw [Spec.State.elemsOf_none ht, Spec.State.count_eq hny hnx hc ht]; exact .nil
      · have e1 : y.abs.count x.abs.types = x.abs.count x.abs.types := by
          have : ∀ ts, y.abs.count ts = x.abs.count ts := by
            intro ts
            induction ts with
            | nil => rfl
            | cons t ts ih => simp only [Spec.State.count, ih, (h t).length]
          exact this _
        have e2 : x.abs.count y.abs.types = y.abs.count y.abs.types := by
          have : ∀ ts, x.abs.count ts = y.abs.count ts := by
            intro ts
            induction ts with
            | nil => rfl
            | cons t ts ih => simp only [Spec.State.count, ih, (h t).length]
          exact this _
        have e3 := Spec.State.count_all hnx
        have e4 := Spec.State.count_all hny
        have e5 := Spec.State.count_le (s := x.abs) y.abs.types hny hnx
        have e6 := Spec.State.count_le (s := y.abs) x.abs.types hnx hny
        show y.abs.count x.abs.types = y.abs.flat.length
        omega
  · rintro e z' w' ⟨rfl, g, n, hn, h1, h3, h4⟩
    exact ⟨rfl, hsz ▸ g, n.seg.ty, h1, by rw [helem n hn]; exact h3, by rw [helem n hn]; exact h4⟩

/-! ### Copies, moves, assignments -/

/-- A collection without segments. -/
theorem none_inv {c : Coll V} {w : World} (h1 : c.map.nodes = []) (h2 : c.map.cache = []) (hw : 0 < w.next) : c.Inv E w :=
  ⟨TMap.empty_inv E _ _ _ h1 h2, TMap.empty_mem _ _ _ h1, hw⟩

theorem none_abs {c : Coll V} (h : c.map.nodes = []) : c.abs = [] := by
  simp [Coll.abs, TMap.abs, h]

/-- Exceptions of copying `s`. -/
def CopyExc (s : Spec.State V) (e : Exc) : Prop :=
  TMap.BadAlloc E e ∨ ∃ t ∈ s.types, ExcFrom E t (s.elemsOf t ≠ []) (E.TooMany t (max 1 (s.elemsOf t).length)) e

theorem copyExc {k : Kind} {m : TMap V} {w : World} (h : m.Inv E k w) {e : Exc} (he : TMap.CopyExc E m e) : CopyExc E m.abs e := by
  rcases he with he | ⟨n, hn, he⟩
  · exact Or.inl he
  · refine Or.inr ⟨n.seg.ty, ?_, ?_⟩
    · rw [TMap.abs_types]; exact List.mem_map_of_mem hn
    · have := TMap.abs_get E h hn
      simpa [Spec.State.elemsOf, this, Seg.size_eq] using he

theorem copyable_abs {k : Kind} {m : TMap V} {w : World} (h : m.Inv E k w)
    (hc : ∀ n ∈ m.nodes, n.seg.elems ≠ [] → (E.traits n.seg.ty).copyable = true) :
    ∀ t, m.abs.elemsOf t ≠ [] → (E.traits t).copyable = true := by
  intro t ht
  by_cases hm : t ∈ m.abs.types
  · rw [TMap.abs_types] at hm
    obtain ⟨n, hn, rfl⟩ := List.mem_map.1 hm
    refine hc n hn ?_
    have := TMap.abs_get E h hn
    simpa [Spec.State.elemsOf, this] using ht
  · exact absurd (Spec.State.elemsOf_none hm) ht

theorem copyAl_runs {X : Type} (x : Coll V) (al : Alloc) (z : X) (w : World) (h : x.map.Inv E x.kind w) (hw : 0 < w.next) :
    Runs (copyAl E x al : Prog X (Coll V)) z w
      (fun c z' w' => z' = z ∧ w.next ≤ w'.next ∧ c.Inv E w' ∧ c.kind = x.kind ∧ c.map.al = al ∧ c.abs.Perm x.abs ∧
        ∀ t, x.abs.elemsOf t ≠ [] → (E.traits t).copyable = true)
      (fun e z' w' => z' = z ∧ w.next ≤ w'.next ∧ CopyExc E x.abs e) := by
  unfold copyAl
  rw [runs_bind]
  refine (TMap.copyAl_runs E x.kind x.map al z w h hw).mono ?_ ?_
  · rintro m z' w' ⟨rfl, a, b⟩
    have := a.next
    exact ⟨rfl, a.next, ⟨a.inv, a.mem, by omega⟩, rfl, a.al, a.abs, copyable_abs E h b⟩
  · rintro e z' w' ⟨rfl, a, b⟩
    exact ⟨rfl, a, copyExc E h b⟩

theorem assign_runs (x c : Coll V) (w : World) (h : x.map.Inv E x.kind w) (hk : c.kind = x.kind) (hw : 0 < w.next) :
    Runs (assign E x) c w
      (fun _ c' w' => w.next ≤ w'.next ∧ c'.Inv E w' ∧ c'.kind = c.kind ∧ c'.map.al = (if E.pocca then x.map.al else c.map.al) ∧
        c'.abs.Perm x.abs ∧ ∀ t, x.abs.elemsOf t ≠ [] → (E.traits t).copyable = true)
      (fun e c' w' => w.next ≤ w'.next ∧ c'.Inv E w' ∧ c'.kind = c.kind ∧ c'.map.al = (if E.pocca then x.map.al else c.map.al) ∧
        c'.abs = [] ∧ CopyExc E x.abs e) := by
  unfold assign onMap
  rw [runs_zoom]
  refine (TMap.assign_runs E x.kind x.map c.map w h hw).mono ?_ ?_
  · rintro _ m w' ⟨a, b⟩
    have := a.next
    exact ⟨a.next, ⟨hk ▸ a.inv, a.mem, by omega⟩, rfl, a.al, a.abs, copyable_abs E h b⟩
  · rintro e m w' ⟨a1, a2, a3, a4, a5⟩
    exact ⟨a4, none_inv E a1 a2 (by omega), rfl, a3, none_abs a1, copyExc E h a5⟩

/-- Move construction. -/
theorem move_runs (x : Coll V) (w : World) (h : x.Inv E w) :
    Runs move x w (fun c x' w' => c = x ∧ w' = w ∧ x' = empty' x.kind x.map.al ∧ x'.Inv E w) (fun _ _ _ => False) := by
  unfold move onMap TMap.move
  simp only [runs_bind, runs_zoom, runs_get, runs_set, runs_pure]
  exact ⟨by trivial, by trivial, rfl, none_inv E rfl rfl h.pos⟩

/-- Exceptions of moving the elements of `s` one by one. -/
def MoveExc (s : Spec.State V) (e : Exc) : Prop :=
  TMap.BadAlloc E e ∨ ∃ t ∈ s.types, ExcFrom E t False (E.TooMany t (max 1 (s.elemsOf t).length)) e

theorem moveExc {k : Kind} {m : TMap V} {w : World} (h : m.Inv E k w) {e : Exc} (he : TMap.MoveExc E m e) : MoveExc E m.abs e := by
  rcases he with he | ⟨n, hn, he⟩
  · exact Or.inl he
  · refine Or.inr ⟨n.seg.ty, by rw [TMap.abs_types]; exact List.mem_map_of_mem hn, ?_⟩
    have := TMap.abs_get E h hn
    simpa [Spec.State.elemsOf, this, Seg.size_eq] using he

theorem moveAl_runs (al : Alloc) (x : Coll V) (w : World) (h : x.Inv E w) :
    Runs (moveAl E al) x w
      (fun c x' w' => w.next ≤ w'.next ∧ c.Inv E w' ∧ c.kind = x.kind ∧ c.map.al = al ∧ c.abs.Perm x.abs ∧
        x'.Inv E w' ∧ x'.kind = x.kind ∧ x'.map.al = x.map.al ∧ x'.abs = [] ∧ (x.map.al = al → c = x ∧ w' = w))
      (fun e x' w' => w.next ≤ w'.next ∧ x.map.al ≠ al ∧ MoveExc E x.abs e ∧ x'.kind = x.kind ∧ TMap.HalfMoved E x.kind x.map x'.map w') := by
  unfold moveAl onMap
  simp only [runs_bind, runs_zoom, runs_get, runs_pure]
  refine (TMap.moveAl_runs E x.kind al x.map w h.map h.mem).mono ?_ ?_
  · rintro m x' w' ⟨a1, a2, a3, a4, a5, a6, a7, a8, a9⟩
    have hp := h.pos
    refine ⟨a5, ⟨a1, a2, by omega⟩, by trivial, a3, a4, none_inv E a6 a7 (by omega), by trivial, a8, none_abs a6, fun e => ?_⟩
    obtain ⟨rfl, e'⟩ := a9 e
    exact ⟨rfl, e'⟩
  · rintro e x' w' ⟨a1, a2, a3, a4⟩
    exact ⟨a1, a2, moveExc E h.map a3, by trivial, a4⟩

theorem moveAssign_runs (c x : Coll V) (w : World) (h : x.Inv E w) (hk : c.kind = x.kind) :
    Runs (moveAssign E) (c, x) w
      (fun _ p w' => w.next ≤ w'.next ∧ p.1.Inv E w' ∧ p.1.kind = c.kind ∧ p.1.map.al = (if E.pocma then x.map.al else c.map.al) ∧
        p.1.abs.Perm x.abs ∧ p.2.Inv E w' ∧ p.2.kind = x.kind ∧ p.2.map.al = x.map.al ∧ p.2.abs = [] ∧
        (E.pocma ∨ c.map.al = x.map.al → p.1 = { x with map := { x.map with al := p.1.map.al } } ∧ w' = w))
      (fun e p w' => w.next ≤ w'.next ∧ p.1.Inv E w' ∧ p.1.kind = c.kind ∧ p.1.map.al = c.map.al ∧ p.1.abs = [] ∧
        p.2.Inv E w' ∧ p.2.kind = x.kind ∧ p.2.map.al = x.map.al ∧ p.2.abs = [] ∧ ¬E.pocma ∧ c.map.al ≠ x.map.al ∧ MoveExc E x.abs e) := by
  unfold moveAssign onMaps
  rw [runs_zoom]
  have hp := h.pos
  refine (TMap.moveAssign_runs E x.kind c.map x.map w h.map h.mem).mono ?_ ?_
  · rintro _ ⟨m, y⟩ w' ⟨a1, a2, a3, a4, a5, a6, a7, a8, a9⟩
    refine ⟨a5, ⟨hk ▸ a1, a2, by omega⟩, rfl, a3, a4, none_inv E a6 a7 (by omega), rfl, a8, none_abs a6, fun e => ?_⟩
    obtain ⟨b1, b2⟩ := a9 e
    refine ⟨?_, b2⟩
    simp only at b1 ⊢
    rw [← b1, hk]
  · rintro e ⟨m, y⟩ w' ⟨a1, a2, a3, a4, a5, a6, a7, a8, a9, a10⟩
    exact ⟨a7, none_inv E a1 a2 (by omega), rfl, a3, none_abs a1, none_inv E a4 a5 (by omega), rfl, a6, none_abs a4, a8, a9, moveExc E h.map a10⟩

theorem swap_runs (c x : Coll V) (w : World) (hk : c.kind = x.kind) (h : E.pocs ∨ c.map.al = x.map.al) :
    Runs (swap E) (c, x) w (fun _ p w' => p = (x, c) ∧ w' = w) (fun _ _ _ => False) := by
  unfold swap onMaps
  rw [runs_zoom]
  refine (TMap.swap_runs E c.map x.map w h).mono ?_ (fun _ _ _ h => h)
  rintro _ ⟨m, y⟩ w' ⟨e, rfl⟩
  cases e
  refine ⟨?_, rfl⟩
  cases c; cases x; simp_all

end Coll
end PolyColl
