import Verif.Lemmas.GoodHistory
/-!
# When copying throws `not_copy_constructible`

`CopyExc` bounds what copying a collection may throw.  Here is the sharper fact that
`not_copy_constructible` is thrown only for the type of a non-empty segment: segments without
elements are copied whatever their type.  Also, what is allocated for a copy is new.
-/

namespace PolyColl
open Prog


/-- Throws something else than `not_copy_constructible`, if at all. -/
def NoCC {X α : Type} (p : Prog X α) : Prop := ∀ x w, Leaves p x w (fun _ _ _ => True) (fun e _ _ => ∀ t, e ≠ .notCopyConstructible t)

namespace NoCC
variable {X Y α β : Type}

theorem bind {p : Prog X β} {f : β → Prog X α} (hp : NoCC p) (hf : ∀ b, NoCC (f b)) : NoCC (p >>= f) := by
  intro x w
  rw [leaves_bind]
  exact (hp x w).mono (fun b x' w' _ => hf b x' w') (fun _ _ _ h => h)

theorem each {f : β → Prog X Unit} (hf : ∀ b, NoCC (f b)) : ∀ l, NoCC (Prog.each f l)
  | [] => fun _ _ => trivial
  | b :: l => bind (hf b) fun _ => each hf l

theorem ite {c : Prop} [Decidable c] {p q : Prog X α} (hp : NoCC p) (hq : NoCC q) : NoCC (if c then p else q) := by
  split <;> assumption

theorem get : NoCC (Prog.get : Prog X X) := fun _ _ => trivial
theorem set {x : X} : NoCC (Prog.set x) := fun _ _ => trivial
theorem pure {a : α} : NoCC (Pure.pure a : Prog X α) := fun _ _ => trivial
theorem undef : NoCC (Prog.undef : Prog X α) := fun _ _ => trivial
theorem lengthError : NoCC (Prog.raise .lengthError : Prog X α) := fun _ _ => by intro t h; cases h

theorem alloc {V : Type} {E : Env V} : NoCC (E.alloc : Prog X Nat) := by
  intro x w
  refine Runs.leaves ?_
  rw [E.runs_alloc]
  exact ⟨fun _ => (by intro t h; cases h), fun _ => trivial⟩

theorem zoom {gt : X → Y} {st : X → Y → X} {p : Prog Y α} (hp : NoCC p) : NoCC (Prog.zoom gt st p) := by
  intro x w
  rw [leaves_zoom]
  exact hp _ _

end NoCC

variable {V : Type} (E : Env V)

theorem Env.idxPushBack_noCC (p : Ptr) : NoCC (E.idxPushBack p) := by
  unfold Env.idxPushBack
  exact .bind .get fun _ => .ite .set (.ite .lengthError (.bind .alloc fun _ => .set))

theorem Split.buildIndex_noCC (n : Nat) : NoCC (Split.buildIndex E n) := by
  unfold Split.buildIndex Split.pushIndex
  exact .bind .get fun _ => .each (fun _ => .bind .get fun _ => .ite .undef (.zoom (E.idxPushBack_noCC _))) _

/-- Nothing is relocated if there are no elements. -/
theorem Env.reserve_empty (t : Ty) (n : Nat) (s : Vec V) (h : s.elems = []) (w : World) :
    Leaves (E.reserve t n) s w (fun _ _ _ => True) (fun e _ _ => ∀ t, e ≠ .notCopyConstructible t) := by
  unfold Env.reserve
  simp only [leaves_bind, leaves_get, leaves_ite, leaves_pure, leaves_set, h]
  refine ⟨fun _ => (by intro t h; cases h), fun _ => ⟨fun _ => trivial, fun _ => ?_⟩⟩
  refine (NoCC.alloc s w).mono (fun b s' w' _ => ?_) (fun _ _ _ h => h)
  unfold Env.relocate
  split
  · exact trivial
  · exact trivial

theorem Split.init_empty {X : Type} (t : Ty) (al oal : Alloc) (s : Vec V) (h : s.elems = []) : NoCC (Split.init E t al oal s : Prog X (Split V)) := by
  intro x w
  unfold Split.init Split.onS
  simp only [leaves_locally, leaves_bind, leaves_zoom]
  exact (Env.reserve_empty E t 1 s h w).mono (fun _ s' w' _ => Split.buildIndex_noCC E 0 _ w') (fun _ _ _ h => h)

theorem Seg.copyAl_empty {X : Type} (x : Seg V) (al : Alloc) (h : x.elems = []) : NoCC (Seg.copyAl E x al : Prog X (Seg V)) := by
  obtain ⟨be, snt⟩ := x
  unfold Seg.copyAl
  cases be with
  | packed y =>
    have h : y.s.elems = [] := h
    simp only [Packed.copyAl, Env.copyVec, if_pos h]
    exact .bind (.bind .pure fun _ => .bind .alloc fun _ => .pure) fun _ => .pure
  | split y =>
    have h : y.s.elems = [] := h
    simp only [Split.copyAl, Env.copyVec, if_pos h]
    intro z w
    simp only [leaves_bind, leaves_pure]
    refine (NoCC.alloc z w).mono (fun b s' w' _ => ?_) (fun _ _ _ h => h)
    exact (Split.init_empty E _ _ _ Vec.nil rfl s' w').mono (fun _ _ _ _ => trivial) (fun _ _ _ h => h)

namespace TMap

/-- `not_copy_constructible` comes from a type that has elements. -/
def CopyFails (l : List (Node V)) (e : Exc) : Prop :=
  ∀ t, e = .notCopyConstructible t → ∃ n ∈ l, n.seg.ty = t ∧ n.seg.elems ≠ [] ∧ (E.traits t).copyable = false

theorem copyNodes_fails {X : Type} (al : Alloc) : ∀ (l : List (Node V)) (z : X) (w : World), 0 < w.next →
    Leaves (copyNodes E al l : Prog X (List (Node V))) z w (fun _ _ _ => True) (fun e _ _ => CopyFails E l e) := by
  intro l
  induction l with
  | nil => intro z w _; trivial
  | cons n l ih =>
    intro z w hw
    unfold copyNodes
    simp only [leaves_bind, leaves_pure]
    refine Runs.leaves ?_
    rw [E.runs_alloc]
    refine ⟨fun _ => (by intro t h; cases h), fun _ => ?_⟩
    have h1 := (Seg.copyAl_runs E n.seg al z ⟨w.next + 1, w.tick + 1⟩ (Nat.succ_pos _)).leaves
    have h2 : Leaves (Seg.copyAl E n.seg al : Prog X (Seg V)) z ⟨w.next + 1, w.tick + 1⟩ (fun _ _ w' => 0 < w'.next) (fun e _ _ => CopyFails E (n :: l) e) := by
      by_cases he : n.seg.elems = []
      · have := Seg.copyAl_empty E n.seg al he z ⟨w.next + 1, w.tick + 1⟩
        revert h1 this
        unfold Leaves
        cases Seg.copyAl E n.seg al z ⟨w.next + 1, w.tick + 1⟩ with
        | ub => intro _ _; trivial
        | ok a x' w' => rintro h1 -; have := h1.2.2.2.2.2.2.2.1; simp only at this ⊢; omega
        | exc e x' w' => rintro - h t ht; exact absurd ht (h t)
      · refine h1.mono ?_ ?_
        · intro a x' w' h; have := h.2.2.2.2.2.2.2.1; simp only at this ⊢; omega
        · rintro e x' w' ⟨-, -, h⟩ t rfl
          rcases h with ⟨h, -⟩ | ⟨h, -⟩ | ⟨h, -⟩ | ⟨h, h', -⟩
          · cases h
          · cases h
          · cases h
          · cases h; exact ⟨n, by simp, rfl, he, h'⟩
    exact h2.mono (fun s z' w' hw' => (ih z' w' hw').mono (fun _ _ _ _ => trivial) (fun e _ _ h t ht => by
      obtain ⟨m, hm, h'⟩ := h t ht; exact ⟨m, by simp [hm], h'⟩)) (fun _ _ _ h => h)

theorem copyAl_fails {X : Type} (k : Kind) (x : TMap V) (al : Alloc) (z : X) (w : World) (h : x.Inv E k w) (hw : 0 < w.next) :
    Leaves (copyAl E x al : Prog X (TMap V)) z w (fun _ _ _ => True) (fun e _ _ => CopyFails E x.nodes e) := by
  have h0 := (copyNodes_runs E al z x.nodes w hw).leaves
  have h1 := copyNodes_fails E al x.nodes z w hw
  unfold copyAl build
  simp only [leaves_bind, leaves_world, leaves_locally]
  revert h0 h1
  unfold Leaves
  cases copyNodes E al x.nodes z w with
  | ub => intro _ _; trivial
  | exc e z' w' => exact fun _ h => h
  | ok ns z' w' =>
    rintro ⟨-, a1, a2, a3, a4⟩ -
    obtain ⟨b1, b2, b3, b4⟩ := NewNodes.inv E (b := x.buckets) (g := 0) h a2 a3 (E.shuffle_perm w'.tick ns)
    exact (buildCache_runs E k x.cache _ w' b1 b4).leaves.mono (fun _ _ _ _ => trivial) (fun e _ _ h t ht => by
      have := h.2.2.2.1; rw [ht] at this; cases this)

theorem assign_fails (k : Kind) (x m : TMap V) (w : World) (h : x.Inv E k w) (hw : 0 < w.next) :
    Leaves (assign E x) m w (fun _ _ _ => True) (fun e _ _ => CopyFails E x.nodes e) := by
  unfold assign assignBody clearAll
  simp only [leaves_onExc, leaves_bind, leaves_get, leaves_set, leaves_world]
  have h0 := (copyNodes_runs E (if E.pocca then x.al else m.al) ({ m with nodes := [], al := if E.pocca then x.al else m.al } : TMap V) x.nodes w hw).leaves
  have h1 := copyNodes_fails E (if E.pocca then x.al else m.al) x.nodes ({ m with nodes := [], al := if E.pocca then x.al else m.al } : TMap V) w hw
  revert h0 h1
  unfold Leaves
  cases copyNodes E (if E.pocca then x.al else m.al) x.nodes ({ m with nodes := [], al := if E.pocca then x.al else m.al } : TMap V) w with
  | ub => intro _ _; trivial
  | exc e z' w' => exact fun _ h => h
  | ok ns z' w' =>
    rintro ⟨-, a1, a2, a3, a4⟩ -
    obtain ⟨b1, b2, b3, b4⟩ := NewNodes.inv E (b := x.buckets) (g := m.gen + 1) h a2 a3 (E.shuffle_perm w'.tick ns)
    exact (buildCache_runs E k x.cache _ w' b1 b4).leaves.mono (fun _ _ _ _ => trivial) (fun e _ _ h t ht => by
      have := h.2.2.2.1; rw [ht] at this; cases this)

end TMap

namespace Coll
variable {E}

/-- All memory of `c` was allocated after `w`. -/
def New (w : World) (c : Coll V) : Prop := ∀ n ∈ c.map.nodes, w.next ≤ n.id ∧ n.seg.New w

/-- `not_copy_constructible` comes from a type that has elements. -/
theorem fails_abs {k : Kind} {m : TMap V} {w : World} (h : m.Inv E k w) {e : Exc} (he : TMap.CopyFails E m.nodes e) :
    ∀ t, e = .notCopyConstructible t → m.abs.elemsOf t ≠ [] ∧ (E.traits t).copyable = false := by
  intro t ht
  obtain ⟨n, hn, rfl, h1, h2⟩ := he t ht
  have := TMap.abs_get E h hn
  exact ⟨by simpa [Spec.State.elemsOf, this] using h1, h2⟩

variable (E)

theorem copyAl_new {X : Type} (x : Coll V) (al : Alloc) (z : X) (w : World) (h : x.map.Inv E x.kind w) (hw : 0 < w.next) :
    Leaves (copyAl E x al : Prog X (Coll V)) z w (fun c _ _ => c.New w)
      (fun e _ _ => ∀ t, e = .notCopyConstructible t → x.abs.elemsOf t ≠ [] ∧ (E.traits t).copyable = false) := by
  have h0 := (TMap.copyAl_runs E x.kind x.map al z w h hw).leaves
  have h1 := TMap.copyAl_fails E x.kind x.map al z w h hw
  unfold copyAl
  simp only [leaves_bind, leaves_pure]
  revert h0 h1
  unfold Leaves
  cases TMap.copyAl E x.map al z w with
  | ub => intro _ _; trivial
  | ok m z' w' => rintro ⟨-, a, -⟩ -; exact fun n hn => ⟨a.id n hn, a.new n hn⟩
  | exc e z' w' => exact fun _ h' => fails_abs h h'

theorem assign_new (x c : Coll V) (w : World) (h : x.map.Inv E x.kind w) (hw : 0 < w.next) :
    Leaves (assign E x) c w (fun _ c' _ => c'.New w)
      (fun e _ _ => ∀ t, e = .notCopyConstructible t → x.abs.elemsOf t ≠ [] ∧ (E.traits t).copyable = false) := by
  have h0 := (TMap.assign_runs E x.kind x.map c.map w h hw).leaves
  have h1 := TMap.assign_fails E x.kind x.map c.map w h hw
  unfold assign onMap
  rw [leaves_zoom]
  revert h0 h1
  unfold Leaves
  cases TMap.assign E x.map c.map w with
  | ub => intro _ _; trivial
  | ok m z' w' => rintro ⟨a, -⟩ -; exact fun n hn => ⟨a.id n hn, a.new n hn⟩
  | exc e z' w' => exact fun _ h' => fails_abs h h'

end Coll
end PolyColl
