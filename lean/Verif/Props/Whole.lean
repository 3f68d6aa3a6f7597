import Verif.Props.SampleData
import Verif.Lemmas.CopyFail
import Verif.Lemmas.Stays
/-!
# Copying, moving, swapping and comparing (C33–C40)

These operations involve several collections, so the theorems are about a program with its
collections `s 0`, `s 1`, …: `Sys.Reached E k sub s w` says that a program using collections as
documented can have these.  `Op.run E k sub (.copy i j)` copy constructs collection `i` from `j`,
and so on (`Model/History.lean`).
-/

namespace PolyColl
open Prog Coll

variable {V : Type} {E : Env V} {k : Kind}

/-- Collections that a program can have; collection `i` has been used as documented (or repaired)
if `H i = .sound`.  (`sub t` is the `std::type_info` object that `typeid` gives
for an element of type `t` of another collection.) -/
structure Sys.Reached (E : Env V) (k : Kind) (sub : Ty → TI) (H : Nat → Health) (s : Sys V) (w : World) : Prop where
  ids : ∀ t, E.tiTy (sub t) = t
  reach : GoodReach E k sub H s w

/-- `c` has the types and elements of `d`, each segment in the same order. -/
structure Coll.SameContents (c d : Coll V) : Prop where
  types : ∀ t, t ∈ c.abs.types ↔ t ∈ d.abs.types
  elems : ∀ t, c.abs.elemsOf t = d.abs.elemsOf t

/-- The memory of a collection: the nodes of its map and the buffers of its segments. -/
def Coll.Owns (c : Coll V) (b : Nat) : Prop := b ≠ 0 ∧ ∃ n ∈ c.map.nodes, b = n.id ∨ b ∈ n.seg.blocks

/-- Operation `op` can change collection `x`: it is applied to it, or constructs, assigns, moves
from or swaps it. -/
def Op.Changes (op : Op V) (x : Nat) : Prop :=
  match op with
  | .on i _ | .create i _ | .fromRange i _ _ | .fromTerminal i _ _ _ _ | .fromColl i _ _ _ _ | .fromLocalColl i _ _ _ _ | .copy i _ | .copyAl i _ _ | .assign i _
  | .insertColl i _ _ _ | .insertLocalColl i _ _ _ | .insertHintColl i _ _ _ _ | .insertHintLocalColl i _ _ _ _ => x = i
  | .move i j | .moveAl i j _ | .moveAssign i j | .swap i j => x = i ∨ x = j

namespace Sys.Reached
variable {sub : Ty → TI} {H : Nat → Health} {s : Sys V} {w : World}

theorem good (h : Reached E k sub H s w) : SysHolds E k H s w := goodReach_inv E h.ids h.reach

theorem coll (h : Reached E k sub H s w) {i : Nat} (hi : H i = .sound) : (s i).Reachable E k w := ⟨sub, H, s, i, h.ids, h.reach, hi, rfl⟩

theorem inv (h : Reached E k sub H s w) {i : Nat} (hi : H i = .sound) : (s i).Inv E w := (h.good.sound E hi).1

theorem map (h : Reached E k sub H s w) (i : Nat) : (s i).map.Inv E (s i).kind w := (h.good.1 i).map E

theorem nodup (h : Reached E k sub H s w) (i : Nat) : (s i).abs.types.Nodup := abs_nodup E (h.map i)

theorem kind (h : Reached E k sub H s w) (i j : Nat) : (s i).kind = (s j).kind := ((h.good.1 i).kind E).trans ((h.good.1 j).kind E).symm

theorem pos (h : Reached E k sub H s w) : 0 < w.next := h.good.2

theorem runs (h : Reached E k sub H s w) (op : Op V) (hn : ∀ i ∈ op.needs, H i = .sound) (hp : op.Pre E s) {Q : Unit → Sys V → World → Prop}
    {R : Exc → Sys V → World → Prop} (hr : Runs (op.run E k sub) s w Q R) :
    Runs (op.run E k sub) s w (fun a s' w' => Reached E k sub (Health.mark H op.writes .sound) s' w' ∧ Q a s' w')
      (fun e s' w' => (op.Strong E k s → Reached E k sub (Health.mark H op.resets .sound) s' w') ∧ R e s' w') := by
  revert hr
  unfold Runs
  cases hq : op.run E k sub s w with
  | ok a s' w' => exact fun hr => ⟨⟨h.ids, .ok h.reach op hn hp.apt hq⟩, hr⟩
  | exc e s' w' => exact fun hr => ⟨fun hs => ⟨h.ids, .exc h.reach op hn hp.apt hs hq⟩, hr⟩
  | ub => exact fun hr => hr

end Sys.Reached

theorem Coll.sameContents {c d : Coll V} (hp : c.abs.Perm d.abs) (hn : d.abs.types.Nodup) : c.SameContents d := by
  have ht : ∀ t, t ∈ c.abs.types ↔ t ∈ d.abs.types := fun t => (hp.map Prod.fst).mem_iff
  refine ⟨ht, fun t => ?_⟩
  have hc : c.abs.types.Nodup := (hp.map Prod.fst).nodup_iff.2 hn
  have key : ∀ (s : Spec.State V), s.types.Nodup → ∀ l, s.get t = some l ↔ (t, l) ∈ s := by
    intro s
    induction s with
    | nil => simp [Spec.State.get]
    | cons a s ih =>
      obtain ⟨u, m⟩ := a
      intro hs l
      simp only [Spec.State.types, List.map_cons, List.nodup_cons] at hs
      have ih := ih hs.2 l
      unfold Spec.State.get at ih ⊢
      rw [List.lookup_cons]
      by_cases hu : t = u
      · subst hu
        simp only [beq_self_eq_true, Option.some.injEq, List.mem_cons, Prod.mk.injEq, true_and]
        refine ⟨fun h => Or.inl h.symm, fun h => h.elim Eq.symm fun h => absurd (List.mem_map_of_mem (f := Prod.fst) h) hs.1⟩
      · rw [show (t == u) = false from beq_false_of_ne hu]
        simp [ih, hu]
  have : c.abs.get t = d.abs.get t := by
    apply Option.ext
    intro l
    rw [key _ hc, key _ hn, hp.mem_iff]
  simp [Spec.State.elemsOf, this]

theorem Coll.New.owns {w : World} {c d : Coll V} (hc : c.New w) (hd : d.map.Inv E d.kind w) (hm : d.map.Mem (Seg.Weak E) w) {b : Nat}
    (h1 : c.Owns b) : ¬ d.Owns b := by
  rintro ⟨h0, n, hn, hb⟩
  obtain ⟨-, n', hn', hb'⟩ := h1
  have l1 : w.next ≤ b := by
    obtain ⟨c1, c2⟩ := hc n' hn'
    rcases hb' with rfl | hb'
    · exact c1
    · rcases c2 b hb' with rfl | h
      · exact absurd rfl h0
      · exact h
  have l2 : b < w.next := by
    rcases hb with rfl | hb
    · exact hd.lt n hn
    · exact hm.lt n hn b hb
  omega

theorem Sys.put_same (s : Sys V) (i : Nat) (c : Coll V) : s.put i c i = c := by simp [Sys.put]
theorem Sys.put_other (s : Sys V) {i x : Nat} (c : Coll V) (h : x ≠ i) : s.put i c x = s x := by simp [Sys.put, h]

theorem Op.changes_iff (op : Op V) (x : Nat) : op.Changes x ↔ x ∈ op.writes := by
  cases op <;> simp [Op.Changes, Op.writes]

/-! ### The programs of the examples -/

namespace Sample

theorem sys (k : Kind) : ∃ (sub : Ty → TI) (H : Nat → Health) (s : Sys Nat) (i j : Nat), s.Reached E0 k sub H (w0 k) ∧ i ≠ j ∧ H i = .sound ∧ H j = .sound ∧
    s i = c0 k ∧ s j = c1 k := by
  obtain ⟨sub, H, s, i, j, h1, h2, h3, h4, h5, h6, h7⟩ := reach01 k
  exact ⟨sub, H, s, i, j, ⟨h1, h2⟩, h3, h4, h5, h6, h7⟩

def mvc1 : Coll Nat :=
  ⟨.packed, ⟨[⟨2, 0, ⟨.packed ⟨0, 0, 0, ⟨6, 1, [5]⟩⟩, ⟨6, 1⟩⟩⟩], 1, 1, 0, [(0, ⟨some 2, 1⟩)]⟩⟩
theorem mvstep1 : COp.run (env fun t => t == 18) (.emplace 0 (.emplaced 5)) (Coll.empty' .packed 0) ⟨1, 0⟩ = .ok () mvc1 ⟨7, 7⟩ := rfl
def mvc2 : Coll Nat :=
  ⟨.packed, ⟨[⟨8, 6, ⟨.packed ⟨3, 0, 0, ⟨12, 1, [6]⟩⟩, ⟨12, 1⟩⟩⟩, ⟨2, 0, ⟨.packed ⟨0, 0, 0, ⟨6, 1, [5]⟩⟩, ⟨6, 1⟩⟩⟩], 2, 2, 0, [(0, ⟨some 2, 2⟩), (6,
    ⟨some 8, 2⟩)]⟩⟩
theorem mvstep2 : COp.run (env fun t => t == 18) (.emplace 6 (.emplaced 6)) mvc1 ⟨7, 7⟩ = .ok () mvc2 ⟨13, 14⟩ := rfl
theorem mvreach : Coll.Reachable2 (env fun t => t == 18) .packed mvc2 (Coll.empty' .packed 1) ⟨13, 14⟩ :=
  open Coll in
  Reachable2.start sub (sub_ty _) 0 1
    |>.stepL (.emplace 0 (.emplaced 5)) rfl mvstep1
    |>.stepL (.emplace 6 (.emplaced 6)) rfl mvstep2

theorem not_tooMany {t : Ty} {c : Coll Nat} {a : Spec.State Nat} (h : c.abs = a) (ha : ∀ p ∈ a, p.2.length ≤ 1000) :
    ¬ E0.TooMany t (max 1 (c.abs.elemsOf t).length) := by
  have : (c.abs.elemsOf t).length ≤ 1000 := by
    rw [h]
    unfold Spec.State.elemsOf
    cases hg : Spec.State.get a t with
    | none => exact Nat.zero_le _
    | some l =>
      unfold Spec.State.get at hg
      have : (t, l) ∈ a := by
        clear h ha
        induction a with
        | nil => cases hg
        | cons p a ih =>
          rw [List.lookup_cons] at hg
          by_cases hp : t = p.1
          · subst hp; simp at hg; simp [← hg]
          · rw [show (t == p.1) = false from beq_false_of_ne hp] at hg
            exact .tail _ (ih hg)
      exact ha _ this
  rintro (h1 | h1)
  · change 1000 < _ at h1; omega
  · change 1001 ≤ 1000 at h1; omega

end Sample

namespace Props
variable {sub : Ty → TI} {H : Nat → Health} {s : Sys V} {w : World}

/-! ### C33: copies are equal and independent -/

theorem copyAl_copies (h : s.Reached E k sub H w) (i j : Nat) (al : Alloc) :
    Runs (Sys.construct i (Coll.copyAl E (s j) al)) s w
      (fun _ s' _ => (s' i).SameContents (s j) ∧ (s' i).map.al = al ∧ (∀ x, x ≠ i → s' x = s x) ∧
        (∀ x, x ≠ i → H x ≠ .lost → ∀ b, (s' i).Owns b → ¬ (s' x).Owns b) ∧ (∀ t, (s j).abs.elemsOf t ≠ [] → (E.traits t).copyable = true))
      (fun e s' _ => s' = s ∧ CopyExc E (s j).abs e ∧
        ∀ t, e = .notCopyConstructible t → (s j).abs.elemsOf t ≠ [] ∧ (E.traits t).copyable = false) := by
  unfold Sys.construct
  simp only [runs_bind, runs_get, runs_set]
  refine ((copyAl_runs E (s j) al s w (h.map j) h.pos).withLeaves (copyAl_new E (s j) al s w (h.map j) h.pos)).mono ?_ ?_
  · rintro c s' w' ⟨⟨rfl, a1, a2, a3, a4, a5, a6⟩, a7⟩
    rw [Sys.put_same]
    have o : ∀ x, x ≠ i → Sys.put s' i c x = s' x := fun x hx => Sys.put_other s' c hx
    refine ⟨sameContents a5 (h.nodup j), a4, o, fun x hx hl b hb => ?_, a6⟩
    rw [o x hx]
    exact a7.owns (h.map x) ((h.good.1 x).weak E hl).mem hb
  · rintro e s' w' ⟨⟨rfl, a1, a2⟩, a3⟩
    exact ⟨rfl, a2, a3⟩

/-- Copy construction gives a collection with the same types and elements, each segment in the
same order, and with memory of its own; no other collection changes.  If it throws nothing changes,
and `not_copy_constructible` comes from a type that has elements and is not copyable. -/
theorem C33_copy (h : s.Reached E k sub H w) {i j : Nat} (hij : i ≠ j) :
    Runs (Op.run E k sub (.copy i j)) s w
      (fun _ s' w' => s'.Reached E k sub (Health.mark H [i] .sound) w' ∧ (s' i).SameContents (s j) ∧ (s' i).map.al = E.soccc (s j).map.al ∧ (∀ x, x ≠ i → s' x = s x) ∧
        (∀ x, x ≠ i → H x ≠ .lost → ∀ b, (s' i).Owns b → ¬ (s' x).Owns b) ∧ (∀ t, (s j).abs.elemsOf t ≠ [] → (E.traits t).copyable = true))
      (fun e s' w' => s'.Reached E k sub H w' ∧ s' = s ∧ CopyExc E (s j).abs e ∧
        ∀ t, e = .notCopyConstructible t → (s j).abs.elemsOf t ≠ [] ∧ (E.traits t).copyable = false) := by
  refine (h.runs (.copy i j) (by simp [Op.needs]) hij ?_).mono (fun _ _ _ h => h) (fun _ _ _ h' => ⟨mark_nil H .sound ▸ h'.1 trivial, h'.2⟩)
  simp only [Op.run, runs_bind, runs_get, if_neg hij]
  exact copyAl_copies h i j _

/-- The same for the constructor with an allocator. -/
theorem C33_copy_allocator (h : s.Reached E k sub H w) {i j : Nat} (hij : i ≠ j) (al : Alloc) :
    Runs (Op.run E k sub (.copyAl i j al)) s w
      (fun _ s' w' => s'.Reached E k sub (Health.mark H [i] .sound) w' ∧ (s' i).SameContents (s j) ∧ (s' i).map.al = al ∧ (∀ x, x ≠ i → s' x = s x) ∧
        (∀ x, x ≠ i → H x ≠ .lost → ∀ b, (s' i).Owns b → ¬ (s' x).Owns b) ∧ (∀ t, (s j).abs.elemsOf t ≠ [] → (E.traits t).copyable = true))
      (fun e s' w' => s'.Reached E k sub H w' ∧ s' = s ∧ CopyExc E (s j).abs e ∧
        ∀ t, e = .notCopyConstructible t → (s j).abs.elemsOf t ≠ [] ∧ (E.traits t).copyable = false) := by
  refine (h.runs (.copyAl i j al) (by simp [Op.needs]) hij ?_).mono (fun _ _ _ h => h) (fun _ _ _ h' => ⟨mark_nil H .sound ▸ h'.1 trivial, h'.2⟩)
  simp only [Op.run, runs_bind, runs_get, if_neg hij]
  exact copyAl_copies h i j _

/-- The same for copy assignment, except that the target is left empty if it throws. -/
theorem C33_assign (h : s.Reached E k sub H w) {i j : Nat} (hij : i ≠ j) :
    Runs (Op.run E k sub (.assign i j)) s w
      (fun _ s' w' => s'.Reached E k sub (Health.mark H [i] .sound) w' ∧ (s' i).SameContents (s j) ∧ (∀ x, x ≠ i → s' x = s x) ∧
        (∀ x, x ≠ i → H x ≠ .lost → ∀ b, (s' i).Owns b → ¬ (s' x).Owns b) ∧ (∀ t, (s j).abs.elemsOf t ≠ [] → (E.traits t).copyable = true))
      (fun e s' w' => s'.Reached E k sub (Health.mark H [i] .sound) w' ∧ (s' i).abs = [] ∧ (∀ x, x ≠ i → s' x = s x) ∧ CopyExc E (s j).abs e ∧
        ∀ t, e = .notCopyConstructible t → (s j).abs.elemsOf t ≠ [] ∧ (E.traits t).copyable = false) := by
  refine (h.runs (.assign i j) (by simp [Op.needs, hij]) trivial ?_).mono (fun _ _ _ h => h) (fun _ _ _ h => ⟨h.1 trivial, h.2⟩)
  simp only [Op.run, runs_bind, runs_get, if_neg hij, Sys.on, runs_zoom]
  refine ((assign_runs E (s j) (s i) w (h.map j) (h.kind i j) h.pos).withLeaves (assign_new E (s j) (s i) w (h.map j) h.pos)).mono ?_ ?_
  · rintro _ c w' ⟨⟨a1, a2, a3, a4, a5, a6⟩, a7⟩
    rw [Sys.put_same]
    have o : ∀ x, x ≠ i → Sys.put s i c x = s x := fun x hx => Sys.put_other s c hx
    refine ⟨sameContents a5 (h.nodup j), o, fun x hx hl b hb => ?_, a6⟩
    rw [o x hx]
    exact a7.owns (h.map x) ((h.good.1 x).weak E hl).mem hb
  · rintro e c w' ⟨⟨a1, a2, a3, a4, a5, a6⟩, a7⟩
    rw [Sys.put_same]
    exact ⟨a5, fun x hx => Sys.put_other s c hx, a6, a7⟩

/-- Copying throws `not_copy_constructible` exactly when some type that is not copyable has
elements, and succeeds otherwise, if nothing else fails. -/
theorem C33_throws_exactly (h : s.Reached E k sub H w) {i j : Nat} (hij : i ≠ j) (hf : ∀ n, E.fault n = false)
    (hl : ∀ t ∈ (s j).abs.types, ¬ E.TooMany t (max 1 ((s j).abs.elemsOf t).length)) (op : Op V)
    (hop : op = .copy i j ∨ (∃ al, op = .copyAl i j al) ∨ op = .assign i j) :
    ((∃ t s' w', op.run E k sub s w = .exc (.notCopyConstructible t) s' w') ↔
      ∃ t, (s j).abs.elemsOf t ≠ [] ∧ (E.traits t).copyable = false) ∧
    ((∃ s' w', op.run E k sub s w = .ok () s' w') ↔ ∀ t, (s j).abs.elemsOf t ≠ [] → (E.traits t).copyable = true) := by
  have key : Runs (op.run E k sub) s w (fun _ _ _ => ∀ t, (s j).abs.elemsOf t ≠ [] → (E.traits t).copyable = true)
      (fun e _ _ => CopyExc E (s j).abs e ∧ ∀ t, e = .notCopyConstructible t → (s j).abs.elemsOf t ≠ [] ∧ (E.traits t).copyable = false) := by
    rcases hop with rfl | ⟨al, rfl⟩ | rfl
    · exact (C33_copy h hij).mono (fun _ _ _ h => h.2.2.2.2.2) (fun _ _ _ h => h.2.2)
    · exact (C33_copy_allocator h hij al).mono (fun _ _ _ h => h.2.2.2.2.2) (fun _ _ _ h => h.2.2)
    · exact (C33_assign h hij).mono (fun _ _ _ h => h.2.2.2.2) (fun _ _ _ h => h.2.2.2)
  have no : ∀ n, ¬ E.fault n = true := fun n hn => by rw [hf n] at hn; cases hn
  revert key
  unfold Runs
  cases hq : op.run E k sub s w with
  | ub => exact False.elim
  | ok a s' w' =>
    refine fun hc => ⟨⟨fun ⟨_, _, _, h⟩ => (by cases h), fun ⟨t, h1, h2⟩ => ?_⟩, ⟨fun _ => hc, fun _ => ⟨s', w', rfl⟩⟩⟩
    rw [hc t h1] at h2; cases h2
  | exc e s' w' =>
    rintro ⟨h1, h2⟩
    have : ∃ t, e = .notCopyConstructible t := by
      rcases h1 with h1 | ⟨t, ht, h1⟩
      · obtain ⟨-, n, h1⟩ := h1
        exact absurd h1 (no n)
      · rcases h1 with ⟨-, n, h1⟩ | ⟨-, n, h1⟩ | ⟨-, h1⟩ | ⟨h1, -⟩
        · exact absurd h1 (no n)
        · exact absurd h1 (no n)
        · exact absurd h1 (hl t ht)
        · exact ⟨t, h1⟩
    obtain ⟨t, rfl⟩ := this
    obtain ⟨h3, h4⟩ := h2 t rfl
    refine ⟨⟨fun _ => ⟨t, h3, h4⟩, fun _ => ⟨t, s', w', rfl⟩⟩, ⟨fun ⟨_, _, h⟩ => (by cases h), fun h => ?_⟩⟩
    rw [h t h3] at h4; cases h4

/-- Later changes to one collection do not affect another: whatever a program did and whatever
operation it now runs, even one that throws, a collection stays exactly as it is unless the
operation is applied to it or constructs, assigns, moves from or swaps it. -/
theorem C33_independent (hsub : ∀ t, E.tiTy (sub t) = t) (h : Reach E k sub (Arg.OK E) s w) (op : Op V) {s' : Sys V} {w' : World} {e : Exc}
    (hr : op.run E k sub s w = .ok () s' w' ∨ op.run E k sub s w = .exc e s' w') {x : Nat} (hx : ¬ op.Changes x) : s' x = s x := by
  have := run_changes E sub op s w (reach_inv E hsub h)
  rw [op.changes_iff] at hx
  unfold Leaves at this
  rcases hr with hr | hr <;> rw [hr] at this <;> exact this x hx


/-- In the example program, copying a collection with elements of types 0 and 3 succeeds, and copying
one that has an element of type 1, which is not copyable, throws. -/
example (k : Kind) : ∃ (sub : Ty → TI) (H : Nat → Health) (s : Sys Nat) (i j : Nat) (w : World), s.Reached Sample.E0 k sub H w ∧ i ≠ j ∧ H i = .sound ∧ H j = .sound ∧
    (∃ s' w', Op.run Sample.E0 k sub (.copy i j) s w = .ok () s' w' ∧ (s' i).abs.elemsOf 0 = [5, 4] ∧ (s' i).abs.elemsOf 3 = [6]) ∧
    (∃ t s' w', Op.run Sample.E0 k sub (.copy j i) s w = .exc (.notCopyConstructible t) s' w') := by
  obtain ⟨sub, H, s, i, j, h, hij, hi, hj, h0, h1⟩ := Sample.sys k
  refine ⟨sub, H, s, i, j, _, h, hij, hi, hj, ?_, ?_⟩
  · obtain ⟨s', w', he⟩ := (C33_throws_exactly h hij (fun _ => rfl) (fun t _ => Sample.not_tooMany (by rw [h1, Sample.abs1]) (by decide)) _ (Or.inl rfl)).2.2 (by
      rw [h1, Sample.abs1]
      intro t ht
      by_cases e : t = 3
      · subst e; rfl
      · by_cases e' : t = 0
        · subst e'; rfl
        · exact absurd (Spec.State.elemsOf_none (by simp [Spec.State.types, e, e'])) ht)
    have := (runs_ok (C33_copy h hij) he).2.1.elems
    rw [h1, Sample.abs1] at this
    exact ⟨s', w', he, this 0, this 3⟩
  · exact (C33_throws_exactly h (Ne.symm hij) (fun _ => rfl) (fun t _ => Sample.not_tooMany (by rw [h0, Sample.abs0]) (by decide)) _ (Or.inl rfl)).1.2
      ⟨1, by rw [h0, Sample.abs0]; decide, rfl⟩

/-! ### C34: moves transfer everything and leave a usable empty source -/

/-- Move construction: the new collection is what the source was (segments, elements, capacities,
look-up cache), the source is like new. -/
theorem C34_move (h : s.Reached E k sub H w) {i j : Nat} (hij : i ≠ j) (hj : H j = .sound) :
    Runs (Op.run E k sub (.move i j)) s w
      (fun _ s' w' => s'.Reached E k sub (Health.mark H [i, j] .sound) w' ∧ s' i = s j ∧ s' j = Coll.empty' k (s j).map.al ∧ (∀ x, x ≠ i → x ≠ j → s' x = s x) ∧ w' = w)
      (fun _ _ _ => False) := by
  refine (h.runs (.move i j) (by simpa [Op.needs] using hj) hij (R := fun _ _ _ => False) ?_).mono (fun _ _ _ h => h) (fun _ _ _ h => h.2)
  simp only [Op.run, if_neg hij, Sys.construct, Sys.on, runs_bind, runs_get, runs_set, runs_zoom]
  refine (move_runs E (s j) w (h.inv hj)).mono ?_ (fun _ _ _ h => h)
  rintro c x' w' ⟨rfl, rfl, rfl, -⟩
  refine ⟨Sys.put_same _ _ _, ?_, fun x h1 h2 => ?_, rfl⟩
  · rw [Sys.put_other _ _ (Ne.symm hij), Sys.put_same, (h.good.1 j).kind E]
  · rw [Sys.put_other _ _ h1, Sys.put_other _ _ h2]

/-- Move construction with an allocator.  With an allocator equal to that of the source this is like
move construction; otherwise the elements are moved one by one.

Partial: if that throws, the source is left in a state that is not described here, see
`C34_move_allocator_throws`. -/
theorem C34_move_allocator_partial (h : s.Reached E k sub H w) {i j : Nat} (hij : i ≠ j) (hj : H j = .sound) (al : Alloc) :
    Runs (Op.run E k sub (.moveAl i j al)) s w
      (fun _ s' w' => s'.Reached E k sub (Health.mark H [i, j] .sound) w' ∧ (s' i).SameContents (s j) ∧ (s' i).map.al = al ∧ (s' j).abs = [] ∧ (s' j).map.al = (s j).map.al ∧
        (∀ x, x ≠ i → x ≠ j → s' x = s x) ∧ ((s j).map.al = al → s' i = s j))
      (fun e s' _ => (∀ x, x ≠ j → s' x = s x) ∧ (s' j).abs.types = (s j).abs.types ∧ (s j).map.al ≠ al ∧ MoveExc E (s j).abs e) := by
  refine (h.runs (.moveAl i j al) (by simpa [Op.needs] using hj) hij ?_).mono (fun _ _ _ h => h) (fun _ _ _ h => h.2)
  simp only [Op.run, if_neg hij, Sys.construct, Sys.on, runs_bind, runs_get, runs_set, runs_zoom]
  refine (moveAl_runs E al (s j) w (h.inv hj)).mono ?_ ?_
  · rintro c x' w' ⟨a1, a2, a3, a4, a5, a6, a7, a8, a9, a10⟩
    rw [Sys.put_same, Sys.put_other _ _ (Ne.symm hij), Sys.put_same]
    refine ⟨sameContents a5 (h.nodup j), a4, a9, a8, fun x h1 h2 => ?_, fun e => (a10 e).1⟩
    rw [Sys.put_other _ _ h1, Sys.put_other _ _ h2]
  · rintro e x' w' ⟨a1, a2, a3, a4, a5⟩
    refine ⟨fun x hx => Sys.put_other _ _ hx, ?_, a2, a3⟩
    rw [Sys.put_same]
    show x'.map.abs.types = (s j).map.abs.types
    rw [TMap.abs_types, TMap.abs_types]
    exact PolyColl.TMap.All2.map_eq (fun a b hab => hab.frame.ty) a5.nodes

/-- Move assignment to another collection: the target has the types and elements of the source,
the source has none, and both are usable.  If the allocator is propagated or the same nothing is
moved and the segments themselves change owner.  Otherwise moving the elements may throw; then both
collections are usable and empty. -/
theorem C34_moveAssign (h : s.Reached E k sub H w) {i j : Nat} (hij : i ≠ j) (hj : H j = .sound) :
    Runs (Op.run E k sub (.moveAssign i j)) s w
      (fun _ s' w' => s'.Reached E k sub (Health.mark H [i, j] .sound) w' ∧ (s' i).SameContents (s j) ∧ (s' j).abs = [] ∧ (∀ x, x ≠ i → x ≠ j → s' x = s x) ∧
        (E.pocma ∨ (s i).map.al = (s j).map.al → (s' i).map.nodes = (s j).map.nodes))
      (fun e s' w' => s'.Reached E k sub (Health.mark H [i, j] .sound) w' ∧ (s' i).abs = [] ∧ (s' j).abs = [] ∧ (∀ x, x ≠ i → x ≠ j → s' x = s x) ∧
        ¬ E.pocma ∧ (s i).map.al ≠ (s j).map.al ∧ MoveExc E (s j).abs e) := by
  refine (h.runs (.moveAssign i j) (by simpa [Op.needs] using hj) trivial ?_).mono (fun _ _ _ h => h) (fun _ _ _ h => ⟨h.1 trivial, h.2⟩)
  simp only [Op.run, if_neg hij, Sys.on2, runs_zoom]
  refine (moveAssign_runs E (s i) (s j) w (h.inv hj) (h.kind i j)).mono ?_ ?_
  · rintro _ ⟨c, d⟩ w' ⟨a1, a2, a3, a4, a5, a6, a7, a8, a9, a10⟩
    rw [Sys.put_same, Sys.put_other _ _ hij, Sys.put_same]
    refine ⟨sameContents a5 (h.nodup j), a9, fun x h1 h2 => ?_, fun e => ?_⟩
    · rw [Sys.put_other _ _ h2, Sys.put_other _ _ h1]
    · simp only at a10; rw [(a10 e).1]
  · rintro e ⟨c, d⟩ w' ⟨a1, a2, a3, a4, a5, a6, a7, a8, a9, a10, a11, a12⟩
    rw [Sys.put_same, Sys.put_other _ _ hij, Sys.put_same]
    refine ⟨a5, a9, fun x h1 h2 => ?_, a10, a11, a12⟩
    rw [Sys.put_other _ _ h2, Sys.put_other _ _ h1]

/-- A collection assigned to itself by move stays as it is. -/
theorem C34_self (i : Nat) : Op.run E k sub (.moveAssign i i) s w = .ok () s w := by
  simp [Op.run]; rfl

/-- The example program can move its collections either way. -/
example (k : Kind) : ∃ (sub : Ty → TI) (H : Nat → Health) (s : Sys Nat) (i j : Nat) (w : World), s.Reached Sample.E0 k sub H w ∧ i ≠ j ∧ H i = .sound ∧ H j = .sound ∧
    (s i).abs = [(1, [9]), (0, [1, 2, 3]), (5, []), (2, [7])] ∧ (s j).abs = [(3, [6]), (0, [5, 4])] ∧ (s i).map.al ≠ (s j).map.al := by
  obtain ⟨sub, H, s, i, j, h, hij, hi, hj, h0, h1⟩ := Sample.sys k
  exact ⟨sub, H, s, i, j, _, h, hij, hi, hj, by rw [h0, Sample.abs0], by rw [h1, Sample.abs1], by rw [h0, h1]; cases k <;> decide⟩

/-- Negation for the remaining case: a `base_collection` with elements 6 (type 3) and 5 (type 0) is
moved with another allocator; the allocation for the second segment fails.  The first segment of
the source has been emptied, but its cached end is that of before: traversing the source is
undefined. -/
theorem C34_move_allocator_throws : ∃ (E : Env Nat) (c c' : Coll Nat) (w w' : World) (it : GIter), c.Reachable E .packed w ∧
    c.abs = [(3, [6]), (0, [5])] ∧ Coll.moveAl E 7 c w = .exc .badAlloc c' w' ∧ c'.abs = [(3, []), (0, [5])] ∧
    c'.begin E = some it ∧ c'.walk E c'.end it 10 = none :=
  ⟨Sample.env fun t => t == 18, Sample.mvc2,
    ⟨.packed, ⟨[⟨8, 6, ⟨.packed ⟨3, 0, 0, ⟨12, 1, []⟩⟩, ⟨12, 1⟩⟩⟩, ⟨2, 0, ⟨.packed ⟨0, 0, 0, ⟨6, 1, [5]⟩⟩, ⟨6, 1⟩⟩⟩], 2, 2, 0,
      [(0, ⟨some 2, 2⟩), (6, ⟨some 8, 2⟩)]⟩⟩, ⟨13, 14⟩, ⟨17, 19⟩, ⟨⟨some 8, 2⟩, ⟨none, 2⟩, ⟨12, 0⟩⟩,
    Sample.mvreach.left, rfl, rfl, rfl, rfl, rfl⟩

/-! ### C35: swap exchanges contents and keeps iterators valid -/

/-- After `swap` each collection is what the other was: segments, elements, registration, look-up
cache, allocator.  Nothing is allocated, moved or copied.  (As for standard containers the
allocators must be propagated or equal.) -/
theorem C35_swap (h : s.Reached E k sub H w) {i j : Nat} (hij : i ≠ j) (hi : H i = .sound) (hj : H j = .sound)
    (ha : E.pocs = true ∨ (s i).map.al = (s j).map.al) :
    Runs (Op.run E k sub (.swap i j)) s w
      (fun _ s' w' => s'.Reached E k sub H w' ∧ s' i = s j ∧ s' j = s i ∧ (∀ x, x ≠ i → x ≠ j → s' x = s x) ∧ w' = w)
      (fun _ _ _ => False) := by
  refine (h.runs (.swap i j) (by simp [Op.needs, hi, hj]) (Or.inr ha) (R := fun _ _ _ => False) ?_).mono
    (fun _ _ _ h' => ⟨mark_sound (H := H) (l := [i, j]) (by simp [hi, hj]) ▸ h'.1, h'.2⟩) (fun _ _ _ h => h.2)
  simp only [Op.run, if_neg hij, Sys.on2, runs_zoom]
  refine (swap_runs E (s i) (s j) w (h.kind i j) ha).mono ?_ (fun _ _ _ h => h)
  rintro _ p w' ⟨rfl, rfl⟩
  refine ⟨?_, Sys.put_same _ _ _, fun x h1 h2 => ?_, rfl⟩
  · rw [Sys.put_other _ _ hij, Sys.put_same]
  · rw [Sys.put_other _ _ h2, Sys.put_other _ _ h1]

/-- Iterators follow their elements to the other collection. -/
theorem C35_iterators (h : s.Reached E k sub H w) {i j : Nat} (hij : i ≠ j) (hi : H i = .sound) (hj : H j = .sound)
    (ha : E.pocs = true ∨ (s i).map.al = (s j).map.al) :
    Runs (Op.run E k sub (.swap i j)) s w
      (fun _ s' _ => (∀ it p, (s i).At E it p → (s' j).At E it p) ∧ (∀ l t n, (s i).LAtB E l t n → (s' j).LAtB E l t n) ∧
        (∀ l t n, (s i).LAtL E l t n → (s' j).LAtL E l t n))
      (fun _ _ _ => False) := by
  refine (C35_swap h hij hi hj ha).mono ?_ (fun _ _ _ h => h)
  rintro _ s' w' ⟨-, -, h1, -⟩
  rw [h1]
  exact ⟨fun _ _ h => h, fun _ _ _ h => h, fun _ _ _ h => h⟩

example (k : Kind) : ∃ (sub : Ty → TI) (H : Nat → Health) (s : Sys Nat) (i j : Nat) (w : World), s.Reached Sample.E0 k sub H w ∧ i ≠ j ∧ H i = .sound ∧ H j = .sound ∧
    (Sample.E0.pocs = true ∨ (s i).map.al = (s j).map.al) ∧ (s i).abs ≠ [] ∧ (s j).abs ≠ [] := by
  obtain ⟨sub, H, s, i, j, h, hij, hi, hj, h0, h1⟩ := Sample.sys k
  exact ⟨sub, H, s, i, j, _, h, hij, hi, hj, Or.inl rfl, by rw [h0, Sample.abs0]; decide, by rw [h1, Sample.abs1]; decide⟩

/-! ### C36: failed copy assignment, self-assignment -/

/-- If copy assignment throws, the target is usable, nothing is registered in it, and all other
collections are as before. -/
theorem C36_failed_assignment (h : s.Reached E k sub H w) {i j : Nat} {s' : Sys V} {w' : World} {e : Exc}
    (hr : Op.run E k sub (.assign i j) s w = .exc e s' w') :
    s'.Reached E k sub (Health.mark H [i] .sound) w' ∧ (s' i).abs = [] ∧ (∀ t, (s' i).isRegistered E t = false) ∧ ∀ x, x ≠ i → s' x = s x := by
  have hij : i ≠ j := by
    rintro rfl
    simp only [Op.run, if_true] at hr
    cases hr
  obtain ⟨h1, h2, h3, -⟩ := runs_exc (C33_assign h hij) hr
  refine ⟨h1, h2, fun t => ?_, h3⟩
  rw [← Bool.not_eq_true, isRegistered_iff E (h1.map i) t, h2]
  simp [Spec.State.types]

/-- The same whatever happened before: copy assignment repairs a collection that an exception has left
in a bad state.  The target is traversed completely afterwards; it has the elements of the source,
or none at all if the assignment throws. -/
theorem C36_repairs (hsub : ∀ t, E.tiTy (sub t) = t) (h : Reach E k sub (Arg.OK E) s w) {i j : Nat} (hij : i ≠ j) :
    Runs (Op.run E k sub (.assign i j)) s w
      (fun _ s' _ => (s' i).SameContents (s j) ∧ Traversed E (s' i) (s' i).abs.flat ∧ ∀ x, x ≠ i → s' x = s x)
      (fun _ s' _ => (s' i).abs = [] ∧ Traversed E (s' i) [] ∧ ∀ x, x ≠ i → s' x = s x) := by
  have hs := reach_inv E hsub h
  obtain ⟨hk, hj⟩ := hs.1 j
  have hi := (hs.1 i).1
  simp only [Op.run, runs_bind, runs_get, if_neg hij, Sys.on, runs_zoom]
  refine (assign_runs E (s j) (s i) w (by rw [hk]; exact hj) (by rw [hi, hk]) hs.2).mono ?_ ?_
  · rintro _ c w' ⟨a1, a2, a3, a4, a5, a6⟩
    rw [Sys.put_same]
    exact ⟨sameContents a5 (abs_nodup E (c := s j) (w := w) (by rw [hk]; exact hj)), traversed a2, fun x hx => Sys.put_other s c hx⟩
  · rintro _ c w' ⟨a1, a2, a3, a4, a5, a6⟩
    rw [Sys.put_same]
    have := traversed a2
    rw [a5] at this
    exact ⟨a5, this, fun x hx => Sys.put_other s c hx⟩

/-- Assigning a collection to itself changes nothing. -/
theorem C36_self (i : Nat) : Op.run E k sub (.assign i i) s w = .ok () s w := by
  simp only [Op.run, if_true]
  rfl

/-- In the example program, assigning a collection with an element that cannot be copied fails. -/
example (k : Kind) : ∃ (sub : Ty → TI) (H : Nat → Health) (s s' : Sys Nat) (i j : Nat) (w w' : World) (t : Ty), s.Reached Sample.E0 k sub H w ∧
    (s i).abs ≠ [] ∧ Op.run Sample.E0 k sub (.assign i j) s w = .exc (.notCopyConstructible t) s' w' := by
  obtain ⟨sub, H, s, i, j, h, hij, hi, hj, h0, h1⟩ := Sample.sys k
  obtain ⟨t, s', w', he⟩ := (C33_throws_exactly h (Ne.symm hij) (fun _ => rfl)
    (fun t _ => Sample.not_tooMany (by rw [h0, Sample.abs0]) (by decide)) _ (Or.inr (Or.inr rfl))).1.2
    ⟨1, by rw [h0, Sample.abs0]; decide, rfl⟩
  exact ⟨sub, H, s, s', j, i, _, w', t, h, by rw [h1, Sample.abs1]; decide, he⟩

/-! ### C37: equality means equal non-empty segments -/

/-- Sequences of the same length with equal elements at the same places. -/
def SeqEq (E : Env V) (l m : List V) : Prop := l.length = m.length ∧ ∀ p ∈ l.zip m, E.eqv p.1 p.2 = true

/-- Equality of contents: every type has equal sequences of elements.  (For a type without elements
in either, registered or not, there is nothing to compare.) -/
def ContentsEq (E : Env V) (c d : Coll V) : Prop := ∀ t, SeqEq E (c.abs.elemsOf t) (d.abs.elemsOf t)

theorem seqEq_iff {l m : List V} : SeqEq E l m ↔ All2 (fun a b => E.eqv a b = true) l m := by
  constructor
  · rintro ⟨h1, h2⟩
    induction l generalizing m with
    | nil => cases m with
      | nil => exact .nil
      | cons b m => simp at h1
    | cons a l ih => cases m with
      | nil => simp at h1
      | cons b m => exact .cons (h2 (a, b) (by simp)) (ih (by simpa using h1) fun p hp => h2 p (by simp [hp]))
  · intro h
    induction h with
    | nil => exact ⟨rfl, by simp⟩
    | cons h _ ih =>
      refine ⟨by simp [ih.1], fun p hp => ?_⟩
      rcases List.mem_cons.1 hp with rfl | hp
      · exact h
      · exact ih.2 p hp

theorem contentsEq_iff {c d : Coll V} : ContentsEq E c d ↔ ∀ t, All2 (fun a b => E.eqv a b = true) (c.abs.elemsOf t) (d.abs.elemsOf t) :=
  forall_congr' fun _ => seqEq_iff

/-- Why `a==b` throws: a type without `operator==`, or one whose `operator==` was made to fail meanwhile. -/
def Uncomparable (E : Env V) (t : Ty) (w w' : World) : Exc → Prop
  | .notEqualityComparable u => u = t ∧ (E.traits t).eqComparable = false
  | .user => (E.traits t).eqComparable = true ∧ (E.traits t).nothrowEq = false ∧ ∃ n, w.tick ≤ n ∧ n < w'.tick ∧ E.fault n = true
  | _ => False

theorem uncomparable {t : Ty} {e : Exc} {n : Nat} {w w' : World} (hw : Env.EqWorld n w w') (h : E.EqExc t e w w') : Uncomparable E t w w' e := by
  rcases h with ⟨h0, rfl, h1, h2, h3⟩ | ⟨rfl, h⟩
  · exact ⟨h1, h2, w'.tick - 1, by have := hw.2.1; omega, by have := hw.2.1; omega, h3⟩
  · exact ⟨rfl, h⟩

/-- `a==b` is true exactly when the contents are equal.  It changes nothing, needs no memory and compares at most `a.size()`
elements.  It may only throw `not_equality_comparable` or what `operator==` of elements throws; if it is true then all
elements are comparable. -/
theorem C37_equality {c d : Coll V} (hc : c.Possible E k w) (hd : d.Possible E k w) {X : Type} (z : X) (w' : World) :
    Runs (Coll.equal E c d : Prog X Bool) z w'
      (fun b z' w'' => z' = z ∧ w''.next = w'.next ∧ w''.tick ≤ w'.tick + c.abs.flat.length ∧ (b = true ↔ ContentsEq E c d) ∧
        (b = true → ∀ t, c.abs.elemsOf t ≠ [] → (E.traits t).eqComparable = true))
      (fun e z' w'' => z' = z ∧ w''.next = w'.next ∧ w''.tick ≤ w'.tick + c.abs.flat.length ∧ ∃ t, Uncomparable E t w' w'' e) := by
  rw [← size_abs]
  refine (equal_runs E c d w hc.map hd.map (hc.kind.trans hd.kind.symm) z w').mono ?_ ?_
  · rintro b z' w'' ⟨h1, h2, h3, h4⟩
    exact ⟨h1, h2.1, h2.2.2, by rw [contentsEq_iff]; exact h3, h4⟩
  · rintro e z' w'' ⟨h1, h2, t, h3, -⟩
    exact ⟨h1, h2.1, h2.2.2, t, uncomparable h2 h3⟩

example (k : Kind) := C37_equality (Sample.reach0 k).possible (Sample.reach1 k).possible () ⟨1, 0⟩

/-- `a!=b` is the negation of `a==b`, and throws when that does. -/
theorem C37_inequality (c d : Coll V) {X : Type} (z : X) (w : World) :
    Coll.notEqual E c d z w =
      match (Coll.equal E c d : Prog X Bool) z w with
      | .ok b z' w' => .ok (!b) z' w'
      | .exc e z' w' => .exc e z' w'
      | .ub => .ub := by
  show Prog.bind _ _ z w = _
  unfold Prog.bind
  cases (Coll.equal E c d : Prog X Bool) z w <;> rfl

/-- `a==b` was found to be true, some time. -/
def FoundEqual (E : Env V) (c d : Coll V) : Prop := ∃ (X : Type) (z z' : X) (w w' : World), Coll.equal E c d z w = .ok true z' w'

/-- `a==b` will be true whenever it is evaluated, unless `operator==` of an element throws. -/
def IsEqual (E : Env V) (c d : Coll V) : Prop :=
  ∀ (X : Type) (z : X) (w : World), ∃ w', Coll.equal E c d z w = .ok true z w' ∨
    Coll.equal E c d z w = .exc .user z w' ∧ ∃ n, w.tick ≤ n ∧ n < w'.tick ∧ E.fault n = true

theorem foundEqual {c d : Coll V} (hc : c.Possible E k w) (hd : d.Possible E k w) (h : FoundEqual E c d) :
    ContentsEq E c d ∧ ∀ t, c.abs.elemsOf t ≠ [] → (E.traits t).eqComparable = true := by
  obtain ⟨X, z, z', w1, w2, h⟩ := h
  obtain ⟨-, -, -, h1, h2⟩ := runs_ok (C37_equality hc hd z w1) h
  exact ⟨h1.1 rfl, h2 rfl⟩

theorem isEqual {c d : Coll V} (hc : c.Possible E k w) (hd : d.Possible E k w)
    (h1 : ContentsEq E c d) (h2 : ∀ t, c.abs.elemsOf t ≠ [] → (E.traits t).eqComparable = true) : IsEqual E c d := by
  intro X z w'
  have h := equal_runs E c d w hc.map hd.map (hc.kind.trans hd.kind.symm) z w'
  rw [contentsEq_iff] at h1
  revert h
  unfold Runs
  cases (Coll.equal E c d : Prog X Bool) z w' with
  | ub => exact False.elim
  | exc e z' w'' =>
    rintro ⟨rfl, hw, t, h3, -, h4⟩
    have h3 := uncomparable hw h3
    refine ⟨w'', Or.inr ?_⟩
    cases e <;> first | exact h3.elim | (have := h3.2; rw [h2 t h4] at this; cases this) | exact ⟨rfl, h3.2.2⟩
  | ok b z' w'' =>
    rintro ⟨rfl, -, h3, -⟩
    rw [h3.2 h1]
    exact ⟨w'', Or.inl rfl⟩

theorem SeqEq.ne_nil {l m : List V} (h : SeqEq E l m) (hm : m ≠ []) : l ≠ [] := by
  rintro rfl
  exact hm (List.length_eq_zero_iff.1 h.1.symm)

/-- Segments of different types of elements, or of different sorts of collections, are different; elements
are not compared. -/
theorem C37_segments {x y : Seg V} (h : x.ty ≠ y.ty ∨ x.kind ≠ y.kind) {X : Type} (z : X) (w : World) :
    Seg.equal E x y z w = .ok false z w := by
  unfold Seg.equal
  unfold Seg.ty Seg.kind at h
  cases hx : x.be <;> cases hy : y.be <;> simp only [hx, hy, Backend.ty, Backend.kind] at h ⊢
  · rw [if_neg (by simpa using h)]; rfl
  · rfl
  · rfl
  · rw [if_neg (by simpa using h)]; rfl

/-- Empty segments of types 0 and 1; one with an element in a `base_collection` and in an `any_collection`. -/
example : (⟨.packed ⟨0, 0, 0, Vec.nil⟩, ⟨0, 0⟩⟩ : Seg Nat).ty ≠ (⟨.packed ⟨1, 0, 0, Vec.nil⟩, ⟨0, 0⟩⟩ : Seg Nat).ty ∧
    (⟨.packed ⟨0, 0, 0, ⟨2, 1, [5]⟩⟩, ⟨2, 1⟩⟩ : Seg Nat).kind ≠
      (⟨.split ⟨0, 0, 0, ⟨2, 1, [5]⟩, ⟨9, 2, [⟨2, 0⟩, ⟨2, 1⟩]⟩⟩, ⟨9, 1⟩⟩ : Seg Nat).kind := by decide

/-- If elements are equal to themselves and comparable, every collection equals itself. -/
theorem C37_reflexive {c : Coll V} (hc : c.Possible E k w) (he : ∀ v, E.eqv v v = true) (hq : ∀ t, c.abs.elemsOf t ≠ [] → (E.traits t).eqComparable = true) :
    IsEqual E c c := by
  refine isEqual hc hc (fun t => ⟨rfl, fun p hp => ?_⟩) hq
  have : ∀ (l : List V), p ∈ l.zip l → p.1 = p.2 := by
    intro l
    induction l with
    | nil => simp
    | cons a l ih =>
      intro h
      rcases List.mem_cons.1 h with rfl | h
      · rfl
      · exact ih h
  rw [this _ hp]
  exact he _

example (k : Kind) := C37_reflexive (Sample.reach0 k).possible (fun v => by simp [Sample.E0, Sample.env]) (fun t ht => by
  rw [Sample.abs0] at ht
  by_cases h3 : t = 3
  · subst h3; exact absurd rfl ht
  · unfold Sample.E0 Sample.env Sample.traits; dsimp only; split <;> first | rfl | contradiction)

/-- If equality of elements is symmetric, so is equality of collections. -/
theorem C37_symmetric {c d : Coll V} (hc : c.Possible E k w) (hd : d.Possible E k w) (he : ∀ u v, E.eqv u v = true → E.eqv v u = true)
    (h : FoundEqual E c d) : IsEqual E d c := by
  have h := foundEqual hc hd h
  refine isEqual hd hc (fun t => ⟨(h.1 t).1.symm, fun p hp => ?_⟩) fun t ht => h.2 t ((h.1 t).ne_nil ht)
  refine he _ _ ((h.1 t).2 (p.2, p.1) ?_)
  have : ∀ (l m : List V), p ∈ m.zip l → (p.2, p.1) ∈ l.zip m := by
    intro l
    induction l with
    | nil => intro m h; cases m <;> simp at h
    | cons a l ih =>
      intro m h
      cases m with
      | nil => simp at h
      | cons b m =>
        rcases List.mem_cons.1 h with rfl | h
        · simp
        · exact .tail _ (ih m h)
  exact this _ _ hp

example (k : Kind) := C37_symmetric (Sample.reach0 k).possible (Sample.reach0 k).possible (fun u v => by simp [Sample.E0, Sample.env]; omega)
  ⟨Unit, (), (), ⟨1, 0⟩, ⟨1, 1⟩, by cases k <;> rfl⟩

/-- If equality of elements is transitive, so is equality of collections. -/
theorem C37_transitive {c d e : Coll V} (hc : c.Possible E k w) (hd : d.Possible E k w) (he : e.Possible E k w)
    (ht : ∀ u v x, E.eqv u v = true → E.eqv v x = true → E.eqv u x = true) (h : FoundEqual E c d) (h' : FoundEqual E d e) : IsEqual E c e := by
  have h := foundEqual hc hd h
  have h' := foundEqual hd he h'
  refine isEqual hc he (fun t => ?_) h.2
  have h1 := seqEq_iff.1 (h.1 t)
  have h2 := seqEq_iff.1 (h'.1 t)
  refine seqEq_iff.2 (All2.trans (fun a b c hab hbc => ht a b c hab hbc) h1 h2)

example (k : Kind) := C37_transitive (Sample.reach0 k).possible (Sample.reach0 k).possible (Sample.reach0 k).possible (fun u v x => by simp [Sample.E0, Sample.env]; omega)
  ⟨Unit, (), (), ⟨1, 0⟩, ⟨1, 1⟩, by cases k <;> rfl⟩ ⟨Unit, (), (), ⟨1, 0⟩, ⟨1, 1⟩, by cases k <;> rfl⟩

/-- Registration of empty segments, order of segments, capacities: collections with the same contents
are equal (when elements are equal to themselves and comparable), in particular a copy equals its
original. -/
theorem C37_same_contents {c d : Coll V} (hc : c.Possible E k w) (hd : d.Possible E k w) (he : ∀ v, E.eqv v v = true)
    (hq : ∀ t, d.abs.elemsOf t ≠ [] → (E.traits t).eqComparable = true) (h : ∀ t, c.abs.elemsOf t = d.abs.elemsOf t) : IsEqual E c d := by
  refine isEqual hc hd (fun t => seqEq_iff.2 ?_) fun t ht => hq t (h t ▸ ht)
  rw [h t]
  exact All2.refl _ fun v _ => he v

example (k : Kind) := C37_same_contents (Sample.reach0 k).possible (Sample.reach0 k).possible (fun v => by simp [Sample.E0, Sample.env]) (fun t ht => by
  rw [Sample.abs0] at ht
  by_cases h3 : t = 3
  · subst h3; exact absurd rfl ht
  · unfold Sample.E0 Sample.env Sample.traits; dsimp only; split <;> first | rfl | contradiction) fun _ => rfl

/-! ### C38: not_equality_comparable is thrown only when elements must be compared -/

/-- `a==b` throws only because of a type that has equally many, at least one, elements in both: `not_equality_comparable` if it has
no `operator==`, an exception of user code if its `operator==` throws. -/
theorem C38_throws {c d : Coll V} (hc : c.Possible E k w) (hd : d.Possible E k w) {X : Type} {z z' : X} {w' w'' : World} {e : Exc}
    (h : (Coll.equal E c d : Prog X Bool) z w' = .exc e z' w'') :
    ∃ t, Uncomparable E t w' w'' e ∧ c.abs.elemsOf t ≠ [] ∧ d.abs.elemsOf t ≠ [] ∧
      (c.abs.elemsOf t).length = (d.abs.elemsOf t).length := by
  obtain ⟨-, h2, t, h1, h3, h4⟩ := runs_exc (equal_runs E c d w hc.map hd.map (hc.kind.trans hd.kind.symm) z w') h
  refine ⟨t, uncomparable h2 h1, h4, fun h5 => h4 ?_, h3⟩
  rw [h5] at h3
  exact List.length_eq_zero_iff.1 h3

example (k : Kind) := C38_throws (Sample.reach1 k).possible (Sample.reach1 k).possible (z := ()) (z' := ()) (w' := ⟨1, 0⟩) (w'' := ⟨1, 0⟩)
  (e := .notEqualityComparable 3) (by cases k <;> rfl)

/-- The same for `a!=b`. -/
theorem C38_throws_ne {c d : Coll V} (hc : c.Possible E k w) (hd : d.Possible E k w) {X : Type} {z z' : X} {w' w'' : World} {e : Exc}
    (h : (Coll.notEqual E c d : Prog X Bool) z w' = .exc e z' w'') :
    ∃ t, Uncomparable E t w' w'' e ∧ c.abs.elemsOf t ≠ [] ∧ d.abs.elemsOf t ≠ [] ∧
      (c.abs.elemsOf t).length = (d.abs.elemsOf t).length := by
  rw [C37_inequality] at h
  cases hq : (Coll.equal E c d : Prog X Bool) z w' with
  | ok b _ _ => rw [hq] at h; cases h
  | ub => rw [hq] at h; cases h
  | exc e' _ _ => rw [hq] at h; cases h; exact C38_throws hc hd hq

/-- A collection with elements of type 3, which has no `operator==`, cannot be compared to itself, but
it can be compared to a collection with another number of such elements. -/
example (k : Kind) (w : World) : (Sample.c1 k).Possible Sample.E0 k (Sample.w0 k) ∧ (Sample.c0 k).Possible Sample.E0 k (Sample.w0 k) ∧
    Coll.equal Sample.E0 (Sample.c1 k) (Sample.c1 k) () w = .exc (.notEqualityComparable 3) () w ∧
    Coll.equal Sample.E0 (Sample.c1 k) (Sample.c0 k) () w = .ok false () w ∧
    Coll.equal Sample.E0 (Sample.c0 k) (Sample.c0 k) () w = .ok true () ⟨w.next, w.tick + 1⟩ := by
  refine ⟨(Sample.reach1 k).possible, (Sample.reach0 k).possible, ?_⟩
  cases k <;> exact ⟨rfl, rfl, rfl⟩

/-! ### C39: every segment uses the collection's allocator -/

/-- Whatever a program does, all segments of a collection use the collection's allocator.

Partial: for a hash map that destroys its elements when assigned to.  For one that assigns to them see `C77_assign_partial`, `C77_moveAssign`
and, where this is false, `C77_mismatch`. -/
theorem C39_segments_partial {c : Coll V} (h : c.Possible E k w) : ∀ n ∈ c.map.nodes, n.seg.al = c.map.al := h.map.al

example (k : Kind) := C39_segments_partial (Sample.reach0 k).possible

/-- The allocator collection `x` should have after `op`: that given at construction, or propagated
according to the traits of the allocator. -/
def allocAfter (E : Env V) (s : Sys V) (op : Op V) (x : Nat) : Alloc :=
  match op with
  | .create i al | .fromRange i al _ | .fromTerminal i al _ _ _ | .fromColl i _ al _ _ | .fromLocalColl i _ al _ _ | .copyAl i _ al | .moveAl i _ al => if x = i then al else (s x).map.al
  | .copy i j => if x = i then E.soccc (s j).map.al else (s x).map.al
  | .move i j => if x = i then (s j).map.al else (s x).map.al
  | .assign i j => if x = i ∧ E.pocca = true then (s j).map.al else (s x).map.al
  | .moveAssign i j => if x = i ∧ E.pocma = true then (s j).map.al else (s x).map.al
  | .swap i j =>
    if E.pocs = true then if x = i then (s j).map.al else if x = j then (s i).map.al else (s x).map.al
    else (s x).map.al
  | _ => (s x).map.al

theorem allocAfter_other {op : Op V} {x : Nat} (hx : ¬ op.Replaces x) : allocAfter E s op x = (s x).map.al := by
  cases op <;> simp_all [allocAfter, Op.Replaces]

theorem construct_al {i : Nat} {p : Prog (Sys V) (Coll V)} {R : Exc → Sys V → World → Prop} {Q : Coll V → Sys V → World → Prop}
    (hp : Leaves p s w Q R) : Leaves (Sys.construct i p) s w (fun _ s' w' => ∃ c s1, Q c s1 w' ∧ s' = s1.put i c) R := by
  unfold Sys.construct
  simp only [leaves_bind, leaves_get, leaves_set]
  exact hp.mono (fun c s1 w' h => ⟨c, s1, h, rfl⟩) (fun _ _ _ h => h)

/-- The allocator after an operation, for collections it constructs, assigns, moves from or swaps. -/
theorem replaced_al (hsub : ∀ t, E.tiTy (sub t) = t) (op : Op V) (ha : ∀ a ∈ op.args, Arg.OK E a) (hs : SysInv E k s w) :
    Leaves (op.run E k sub) s w (fun _ s' _ => ∀ x, op.Replaces x → (s' x).map.al = allocAfter E s op x)
      (fun _ s' _ => ∀ x, op.Replaces x → (s' x).map.al = (s x).map.al ∨ (s' x).map.al = allocAfter E s op x) := by
  have hcopy : ∀ j al, Leaves (Coll.copyAl E (s j) al : Prog (Sys V) (Coll V)) s w (fun c s' _ => s' = s ∧ c.map.al = al) (fun _ s' _ => s' = s) := by
    intro j al
    obtain ⟨hk, hj⟩ := hs.1 j
    exact (copyAl_runs E (s j) al s w (by rw [hk]; exact hj) hs.2).leaves.mono (fun c s' w' h => ⟨h.1, h.2.2.2.2.1⟩) (fun _ _ _ h => h.1)
  have hon : ∀ {j : Nat} {p : Prog (Coll V) (Coll V)} {Q : Coll V → Coll V → World → Prop} {R : Exc → Coll V → World → Prop}, Leaves p (s j) w Q R →
      Leaves (Sys.on j p) s w (fun c s' w' => ∃ d, Q c d w' ∧ s' = s.put j d) (fun e s' w' => ∃ d, R e d w' ∧ s' = s.put j d) := by
    intro j p Q R h
    unfold Sys.on
    rw [leaves_zoom]
    exact h.mono (fun c d w' h => ⟨d, h, rfl⟩) (fun e d w' h => ⟨d, h, rfl⟩)
  have empty_I : ∀ al, (collCtx E k).I (Coll.empty' k al) w := fun al => ⟨rfl, TMap.empty_inv E k _ _ rfl rfl⟩
  have build : ∀ {op : Op V} {i : Nat} {al : Alloc} {p : Prog (Coll V) Unit}, (∀ x, op.Replaces x ↔ x = i) → allocAfter E s op i = al →
      Leaves p (Coll.empty' k al) w (fun _ c _ => c.map.al = al) (fun _ _ _ => True) →
      Leaves (Sys.construct i (Prog.locally (Coll.empty' k al) p fun _ c => c)) s w
        (fun _ s' _ => ∀ x, op.Replaces x → (s' x).map.al = allocAfter E s op x)
        (fun _ s' _ => ∀ x, op.Replaces x → (s' x).map.al = (s x).map.al ∨ (s' x).map.al = allocAfter E s op x) := by
    intro op i al p hr ha h
    refine (construct_al (Q := fun c s' _ => c.map.al = al) (R := fun _ s' _ => s' = s) ?_).mono ?_ ?_
    · rw [leaves_locally]
      exact h.mono (fun _ c _ h => h) (fun _ c _ h => by trivial)
    · rintro _ s' w' ⟨c, s1, h1, rfl⟩ x hx
      cases (hr x).1 hx
      rw [ha]
      simp only [Sys.put_same, h1]
    · rintro _ s' w' rfl x _
      exact Or.inl rfl
  cases op with
  | create i al =>
    refine (construct_al (Q := fun c s' _ => c.map.al = al) (R := fun _ _ _ => False) ?_).mono ?_ (fun _ _ _ h => h.elim)
    · exact rfl
    · rintro _ s' w' ⟨c, s1, h1, rfl⟩ x rfl
      simp only [Sys.put_same, allocAfter, if_true, h1]
  | fromRange i al as =>
    exact build (op := .fromRange i al as) (fun _ => Iff.rfl) (if_pos rfl)
      (((insertRange_keeps E (k := k) as ha).leaves (empty_I al)).mono (fun _ c _ h => h.2.1.al) (fun _ _ _ _ => trivial))
  | fromTerminal i al fwd t srcs =>
    exact build (op := .fromTerminal i al fwd t srcs) (fun _ => Iff.rfl) (if_pos rfl)
      (((insertRangeTerminal_keeps E (k := k) fwd t srcs).leaves (empty_I al)).mono (fun _ c _ h => h.2.1.al) (fun _ _ _ _ => trivial))
  | fromColl i j al f l =>
    simp only [Op.run, leaves_bind, leaves_get, leaves_ite]
    refine ⟨fun _ => trivial, fun _ => build (op := .fromColl i j al f l) (fun _ => Iff.rfl) (if_pos rfl) ?_⟩
    unfold insertColl
    simp only [leaves_bind, leaves_ofOption]
    intro xs hx
    exact ((insertFrom_keeps E xs (collect_ok E hsub (hs.1 j).2 hx)).leaves (empty_I al)).mono (fun _ c _ h => h.2.1.al) (fun _ _ _ _ => trivial)
  | fromLocalColl i j al f l =>
    simp only [Op.run, leaves_bind, leaves_get, leaves_ite]
    refine ⟨fun _ => trivial, fun _ => build (op := .fromLocalColl i j al f l) (fun _ => Iff.rfl) (if_pos rfl) ?_⟩
    unfold insertLocalColl
    simp only [leaves_bind, leaves_ofOption]
    intro r hr
    exact ((insertFromLocal_keeps E _ r.1 r.2 (collectLocal_ok E (hs.1 j).2 hr) (by rw [hsub])).leaves (empty_I al)).mono
      (fun _ c _ h => h.2.1.al) (fun _ _ _ _ => trivial)
  | copy i j =>
    simp only [Op.run, leaves_bind, leaves_get, leaves_ite]
    refine ⟨fun _ => trivial, fun _ => (construct_al (hcopy j _)).mono ?_ ?_⟩
    · rintro _ s' w' ⟨c, s1, h1, rfl⟩ x rfl
      simp only [Sys.put_same, allocAfter, if_true, h1.2]
    · rintro _ s' w' rfl x _
      exact Or.inl rfl
  | copyAl i j al =>
    simp only [Op.run, leaves_bind, leaves_get, leaves_ite]
    refine ⟨fun _ => trivial, fun _ => (construct_al (hcopy j _)).mono ?_ ?_⟩
    · rintro _ s' w' ⟨c, s1, h1, rfl⟩ x rfl
      simp only [Sys.put_same, allocAfter, if_true, h1.2]
    · rintro _ s' w' rfl x _
      exact Or.inl rfl
  | move i j =>
    simp only [Op.run, leaves_ite]
    refine ⟨fun _ => trivial, fun hij => (construct_al (hon (Q := fun c d _ => c.map.al = (s j).map.al ∧ d.map.al = (s j).map.al)
      (R := fun _ _ _ => False) ?_)).mono ?_ ?_⟩
    · exact ⟨rfl, rfl⟩
    · rintro _ s' w' ⟨c, s1, ⟨d, ⟨h1, h2⟩, rfl⟩, rfl⟩ x hx
      rcases hx with rfl | rfl
      · simp only [Sys.put_same, allocAfter, if_true, h1]
      · simp only [Sys.put_other _ _ (Ne.symm hij), Sys.put_same, allocAfter, if_neg (Ne.symm hij), h2]
    · rintro _ s' w' ⟨d, h, -⟩
      exact h.elim
  | moveAl i j al =>
    simp only [Op.run, leaves_ite]
    refine ⟨fun _ => trivial, fun hij => (construct_al (hon (Q := fun c d _ => c.map.al = al ∧ d.map.al = (s j).map.al)
      (R := fun _ d _ => d.map.al = (s j).map.al) ?_)).mono ?_ ?_⟩
    · unfold Coll.moveAl onMap
      simp only [leaves_bind, leaves_zoom, leaves_get, leaves_pure]
      exact (TMap.moveAl_leaves E k al (s j).map w (hs.1 j).2).mono (fun _ _ _ h => ⟨h.2.1, h.2.2.2.2⟩) (fun _ _ _ h => h.2.2)
    · rintro _ s' w' ⟨c, s1, ⟨d, ⟨h1, h2⟩, rfl⟩, rfl⟩ x hx
      rcases hx with rfl | rfl
      · simp only [Sys.put_same, allocAfter, if_true, h1]
      · simp only [Sys.put_other _ _ (Ne.symm hij), Sys.put_same, allocAfter, if_neg (Ne.symm hij), h2]
    · rintro _ s' w' ⟨d, h, rfl⟩ x hx
      refine Or.inl ?_
      rcases hx with rfl | rfl
      · rw [Sys.put_other _ _ hij]
      · rw [Sys.put_same, h]
  | assign i j =>
    simp only [Op.run, leaves_bind, leaves_get, leaves_ite]
    refine ⟨fun hij x hx => ?_, fun hij => ?_⟩
    · subst hij
      cases hx
      simp [allocAfter]
    · obtain ⟨hk, hj⟩ := hs.1 j
      have hi := (hs.1 i).1
      unfold Sys.on
      rw [leaves_zoom]
      refine (assign_runs E (s j) (s i) w (by rw [hk]; exact hj) (by rw [hi, hk]) hs.2).leaves.mono ?_ ?_
      · rintro _ c w' ⟨-, -, -, h, -⟩ x rfl
        rw [Sys.put_same, h]
        simp [allocAfter]
      · rintro _ c w' ⟨-, -, -, h, -⟩ x rfl
        refine Or.inr ?_
        rw [Sys.put_same, h]
        simp [allocAfter]
  | moveAssign i j =>
    simp only [Op.run, leaves_ite]
    refine ⟨fun hij x hx => ?_, fun hij => ?_⟩
    · subst hij
      simp only [Op.Replaces, or_self] at hx
      subst hx
      simp [allocAfter]
    · unfold Sys.on2 Coll.moveAssign onMaps
      rw [leaves_zoom, leaves_zoom]
      refine (TMap.moveAssign_leaves E k (s i).map (s j).map w (hs.1 j).2).mono ?_ ?_
      · rintro _ ⟨m, y⟩ w' ⟨-, h1, -, -, h2⟩ x hx
        rcases hx with rfl | rfl
        · rw [Sys.put_other _ _ hij, Sys.put_same]
          simp only [allocAfter, true_and]
          exact h1
        · rw [Sys.put_same]
          simp only [allocAfter, if_neg (show ¬ (x = i ∧ E.pocma = true) from fun h => hij h.1.symm)]
          exact h2
      · rintro _ ⟨m, y⟩ w' ⟨-, h1, -, -, h2⟩ x hx
        refine Or.inl ?_
        rcases hx with rfl | rfl
        · rw [Sys.put_other _ _ hij, Sys.put_same]
          exact h1
        · rw [Sys.put_same]
          exact h2
  | swap i j =>
    simp only [Op.run, leaves_ite]
    refine ⟨fun hij x hx => ?_, fun hij => ?_⟩
    · subst hij
      simp only [Op.Replaces, or_self] at hx
      subst hx
      simp [allocAfter]
    · unfold Sys.on2 Coll.swap onMaps TMap.swap
      simp only [leaves_zoom, leaves_bind, leaves_get, leaves_ite, leaves_set, leaves_undef]
      refine ⟨fun hp x hx => ?_, fun _ => trivial⟩
      rcases hx with rfl | rfl
      · rw [Sys.put_other _ _ hij, Sys.put_same]
        simp [allocAfter]
      · rw [Sys.put_same]
        simp [allocAfter, Ne.symm hij]
  | _ => exact Leaves.trivial.mono (fun _ _ _ _ x hx => hx.elim) (fun _ _ _ _ x hx => hx.elim)

/-- The allocators of all collections after an operation, whatever happened before.  If the operation
throws, an allocator is as before or as it should be after the operation (copy assignment
propagates it first). -/
theorem C39_propagation (hsub : ∀ t, E.tiTy (sub t) = t) (h : Reach E k sub (Arg.OK E) s w) (op : Op V) (ha : ∀ a ∈ op.args, Arg.OK E a) (x : Nat) :
    (∀ s' w', op.run E k sub s w = .ok () s' w' → (s' x).map.al = allocAfter E s op x) ∧
    (∀ e s' w', op.run E k sub s w = .exc e s' w' → (s' x).map.al = (s x).map.al ∨ (s' x).map.al = allocAfter E s op x) := by
  have hs := reach_inv E hsub h
  have h1 := run_stays E hsub op ha s w hs
  have h2 := replaced_al (sub := sub) hsub op ha hs
  unfold Leaves at h1 h2
  constructor
  · intro s' w' hr
    rw [hr] at h1 h2
    by_cases hx : op.Replaces x
    · exact h2 x hx
    · rw [allocAfter_other hx]; exact (h1 x hx).al
  · intro e s' w' hr
    rw [hr] at h1 h2
    by_cases hx : op.Replaces x
    · exact h2 x hx
    · exact Or.inl (h1 x hx).al

/-- Two collections of the example program have different allocators, and segments using them. -/
example (k : Kind) : ∃ (sub : Ty → TI) (H : Nat → Health) (s : Sys Nat) (i j : Nat), s.Reached Sample.E0 k sub H (Sample.w0 k) ∧ i ≠ j ∧
    (s i).map.al = 0 ∧ (s j).map.al = 1 ∧ (s i).map.nodes.length = 4 ∧ (s j).map.nodes.length = 2 ∧
    allocAfter Sample.E0 s (.copy i j) i = 11 ∧ allocAfter Sample.E0 s (.swap i j) i = 1 ∧ allocAfter Sample.E0 s (.assign i j) i = 0 := by
  obtain ⟨sub, H, s, i, j, h, hij, hi, hj, h0, h1⟩ := Sample.sys k
  refine ⟨sub, H, s, i, j, h, hij, ?_⟩
  simp only [allocAfter, h0, h1, if_true]
  cases k <;> exact ⟨rfl, rfl, rfl, rfl, rfl, rfl, by simp [Sample.E0, Sample.env]; rfl⟩

/-! ### C40: segment objects are freed with the allocator that allocated them -/

/-- Whatever a program does, each segment object of a collection was obtained from the allocator that
`delete_` will return it to.

Partial: for a hash map that destroys its elements when assigned to.  For one that assigns to them see `C77_assign_partial`, `C77_moveAssign`
and, where this is false, `C77_mismatch`. -/
theorem C40_collections_partial {c : Coll V} (h : c.Possible E k w) : ∀ n ∈ c.map.nodes, n.seg.objAl = n.seg.deleteAl := by
  intro n hn
  have h1 := h.map.al n hn
  have h2 := h.map.objAl n hn
  have : n.seg.deleteAl = n.seg.al := by
    unfold Seg.deleteAl Seg.al
    cases n.seg.be <;> rfl
  rw [h2, this, h1]

example (k : Kind) := C40_collections_partial (Sample.reach0 k).possible

/-- The ways to create a segment object from an allocator: `make`, `make_from_prototype`
(`empty_copy`), `copy(al)` and `move(al)`.

Partial: `copy()` without an allocator is missing, see `C40_copy`. -/
theorem C40_created_partial {X : Type} (x : Seg V) (t : Ty) (al : Alloc) (z : X) (w : World) :
    (∀ y z' w', (Seg.make E k t al : Prog X (Seg V)) z w = .ok y z' w' → y.objAl = y.deleteAl) ∧
    (∀ y z' w', (Seg.makeFromPrototype E x al : Prog X (Seg V)) z w = .ok y z' w' → y.objAl = y.deleteAl) ∧
    (0 < w.next → ∀ y z' w', (Seg.copyAl E x al : Prog X (Seg V)) z w = .ok y z' w' → y.objAl = y.deleteAl) ∧
    (∀ y x' w', Seg.moveAl E al x w = .ok y x' w' → y.objAl = y.deleteAl ∧ x'.objAl = x.objAl ∧ x'.deleteAl = x.deleteAl) := by
  have del : ∀ y : Seg V, y.deleteAl = y.al := by
    intro y
    unfold Seg.deleteAl Seg.al
    cases y.be <;> rfl
  refine ⟨fun y z' w' h => ?_, fun y z' w' h => ?_, fun hw y z' w' h => ?_, fun y x' w' h => ?_⟩
  · obtain ⟨-, -, -, -, h1, h2, -⟩ := runs_ok (Seg.make_runs E k t al z w) h
    rw [del, h1, h2]
  · obtain ⟨-, -, -, -, h1, h2, -⟩ := runs_ok (Seg.make_runs E x.kind x.ty al z w) h
    rw [del, h1, h2]
  · obtain ⟨-, -, -, -, h1, h2, -⟩ := runs_ok (Seg.copyAl_runs E x al z w hw) h
    rw [del, h1, h2]
  · have := Seg.moveAl_leaves E al x w
    unfold Leaves at this
    rw [h] at this
    obtain ⟨h1, h2, -⟩ := this
    simp only [Seg.fix, Prod.mk.injEq] at h1 h2
    rw [del, del, del, h1.2.2.1, h1.2.2.2]
    exact ⟨rfl, h2.2.2.2, h2.2.2.1⟩

/-- `copy()` without an allocator obtains the object from the allocator of the original and gives it
back to the one that `select_on_container_copy_construction` returns: these are the same only if that
returns its argument. -/
theorem C40_copy {X : Type} (x : Seg V) (z : X) (w : World) :
    ∀ y z' w', (Seg.copy E x : Prog X (Seg V)) z w = .ok y z' w' → (y.objAl = y.deleteAl ↔ E.soccc x.al = x.al) := by
  intro y z' w' h
  obtain ⟨be, snt⟩ := x
  cases be with
  | packed x =>
    have : Leaves (Seg.copy E ⟨.packed x, snt⟩ : Prog X (Seg V)) z w (fun y _ _ => y.objAl = x.al ∧ y.deleteAl = E.soccc x.al) (fun _ _ _ => True) := by
      unfold Seg.copy Packed.copy
      simp only [leaves_bind, leaves_pure]
      refine Leaves.trivial.mono (fun s _ _ _ => Leaves.trivial.mono (fun _ _ _ _ => ⟨rfl, rfl⟩) (fun _ _ _ h => h)) (fun _ _ _ h => h)
    unfold Leaves at this
    rw [h] at this
    rw [this.1, this.2]
    exact eq_comm
  | split x =>
    have : Leaves (Seg.copy E ⟨.split x, snt⟩ : Prog X (Seg V)) z w (fun y _ _ => y.objAl = x.al ∧ y.deleteAl = E.soccc x.al) (fun _ _ _ => True) := by
      unfold Seg.copy Split.copy
      simp only [leaves_bind, leaves_pure]
      refine Leaves.trivial.mono (fun s z1 w1 _ => Leaves.trivial.mono (fun _ z2 w2 _ => ?_) (fun _ _ _ h => h)) (fun _ _ _ h => h)
      refine (Split.init_leaves E x.ty (E.soccc x.al) x.al s z2 w2).mono (fun y _ _ h => ?_) (fun _ _ _ _ => trivial)
      have := h.2.1
      simp only [Split.fix, Prod.mk.injEq] at this
      exact ⟨this.2.2, this.2.1⟩
    unfold Leaves at this
    rw [h] at this
    rw [this.1, this.2]
    exact eq_comm

/-- Negation: a segment copied by `copy()` whose storage will be returned to the wrong allocator. -/
theorem C40_copy_mismatch : ∃ (E : Env Nat) (c : Coll Nat) (w w' : World) (n : Node Nat) (y : Seg Nat), c.Reachable E .packed w ∧ n ∈ c.map.nodes ∧
    (Seg.copy E n.seg : Prog Unit (Seg Nat)) () w = .ok y () w' ∧ y.objAl = 0 ∧ y.deleteAl = 10 :=
  ⟨Sample.env fun t => t == 18, Sample.mvc2, ⟨13, 14⟩, ⟨15, 16⟩, ⟨8, 6, ⟨.packed ⟨3, 0, 0, ⟨12, 1, [6]⟩⟩, ⟨12, 1⟩⟩⟩,
    ⟨.packed ⟨3, 10, 0, ⟨13, 1, [6]⟩⟩, ⟨13, 1⟩⟩, Sample.mvreach.left, .head _, rfl, rfl, rfl⟩

end Props
end PolyColl
