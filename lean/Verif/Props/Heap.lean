import Verif.Props.Sample
import Verif.Lemmas.HeapHist
/-!
# Segments on the heap (C74)

`HOp.all (HOp.run E) ops Heap.start w` is a program that creates, copies, moves, assigns, uses and destroys
segments (`Verif/Model/Heap.lean`), and goes on if something throws.  `HOp.all (HOp.value E) ops` is the same program with segments as
values: the other theorems are about these.
-/

namespace PolyColl

variable {V : Type} {E : Env V}

/-- The segments of a program, without pointers. -/
def Heap.sees (h : Heap V) (i : Nat) : Option (Option (Seg V)) :=
  match h.segs i with
  | none => none
  | some ⟨none, _⟩ => some none
  | some ⟨some o, q⟩ => some ((h.objs.lookup o.addr).map fun x => ⟨x, q⟩)

/-- Segment `i` has the object `x` at address `a`. -/
def Heap.Has (h : Heap V) (i a : Nat) (x : Backend V) : Prop := ∃ o q, h.segs i = some ⟨some o, q⟩ ∧ o.addr = a ∧ h.objs.lookup a = some x

/-- Segment `i` needs block `b`, obtained from `al`: it is the storage of its object or a buffer of its vectors. -/
def Heap.Needs (h : Heap V) (i : Nat) (b : Nat) (al : Alloc) : Prop := ∃ a x, h.Has i a x ∧ x.al = al ∧ (b = a ∨ b ∈ x.buffers)

/-- The outcome of a program on a heap, seen without pointers. -/
def Heap.seen {α : Type} : Out (Heap V) α → Out (Vars V) α
  | .ok a h w => .ok a h.sees w
  | .exc e h w => .exc e h.sees w
  | .ub => .ub

theorem Heap.sees_eq (h : Heap V) : h.sees = h.abs := by
  funext i
  unfold Heap.sees Heap.abs
  cases hs : h.segs i with
  | none => rfl
  | some s =>
    obtain ⟨p, q⟩ := s
    cases p <;> rfl

theorem Heap.has_iff {h : Heap V} {i a : Nat} {x : Backend V} : h.Has i a x ↔ ∃ s o, h.segs i = some s ∧ s.ptr = some o ∧ o.addr = a ∧ h.objs.lookup a = some x := by
  constructor
  · rintro ⟨o, q, h1, h2, h3⟩; exact ⟨_, o, h1, rfl, h2, h3⟩
  · rintro ⟨⟨p, q⟩, o, h1, h2, h3, h4⟩
    dsimp only at h2
    subst h2
    exact ⟨o, q, h1, h3, h4⟩

theorem Heap.mem_holds {l : List (Nat × Backend V)} {b : Nat} {al : Alloc} : (b, al) ∈ Heap.holds l ↔ ∃ p ∈ l, p.2.al = al ∧ (b = p.1 ∨ b ∈ p.2.buffers) := by
  unfold Heap.holds
  simp only [List.mem_flatMap, List.mem_cons, mem_pairs, Prod.mk.injEq]
  constructor
  · rintro ⟨p, hp, ⟨h1, h2⟩ | ⟨h1, h2⟩⟩
    · exact ⟨p, hp, h2.symm, Or.inl h1⟩
    · exact ⟨p, hp, h2.symm, Or.inr h1⟩
  · rintro ⟨p, hp, h1, h2 | h2⟩
    · exact ⟨p, hp, Or.inl ⟨h2, h1.symm⟩⟩
    · exact ⟨p, hp, Or.inr ⟨h2, h1.symm⟩⟩

/-- A block that two objects hold. -/
theorem Heap.holds_unique {l : List (Nat × Backend V)} (hn : ((Heap.holds l).map Prod.fst).Nodup) {p q : Nat × Backend V} (hp : p ∈ l) (hq : q ∈ l) {b : Nat} (h1 : b = p.1 ∨ b ∈ p.2.buffers) (h2 : b = q.1 ∨ b ∈ q.2.buffers) : p = q := by
  have key : ∀ {l : List (Nat × Backend V)}, q ∈ l → (b, q.2.al) ∈ Heap.holds l := fun hq => Heap.mem_holds.2 ⟨q, hq, rfl, h2⟩
  have key' : ∀ {l : List (Nat × Backend V)}, p ∈ l → (b, p.2.al) ∈ Heap.holds l := fun hp => Heap.mem_holds.2 ⟨p, hp, rfl, h1⟩
  induction l with
  | nil => cases hp
  | cons r l ih =>
    obtain ⟨a, x⟩ := r
    rw [Heap.holds_cons, List.map_cons, List.map_append, List.nodup_cons, List.nodup_append, pairs_fst] at hn
    obtain ⟨n1, -, n2, n3⟩ := hn
    have out : ∀ c al, (c, al) ∈ Heap.holds l → ¬(c = a ∨ c ∈ x.buffers) := by
      rintro c al hc (rfl | hx)
      · exact n1 (List.mem_append_right _ (List.mem_map.2 ⟨_, hc, rfl⟩))
      · exact n3 c hx c (List.mem_map.2 ⟨_, hc, rfl⟩) rfl
    rcases List.mem_cons.1 hp with rfl | hp' <;> rcases List.mem_cons.1 hq with rfl | hq'
    · rfl
    · exact absurd h1 (out b _ (key hq'))
    · exact absurd h2 (out b _ (key' hp'))
    · exact ih n2 hp' hq'

namespace Sample

/-- Copies of allocators are the same; operation number 14 fails. -/
def EF : Env Nat := { E0 with soccc := fun al => al, fault := fun t => t == 14 }

/-- A segment is made, filled, copied, moved out of with another allocator; the assignment of the result to the copy throws; then the segments are destroyed. -/
def segOps : List (HOp Nat) := [.make 0 .split 0 0, .call 0 (.pushBack (.emplaced 7)), .copy 1 0, .moveAl 2 0 1, .assign 1 2, .destroy 0, .destroy 2, .destroy 1]

def sg (f : Nat → Option Handle) (i : Nat) (s : Option Handle) : Nat → Option Handle := fun j => if j = i then s else f j

def g1 : Nat → Option Handle := sg (fun _ => none) 0 (some ⟨some ⟨1, .split, 0⟩, ⟨3, 0⟩⟩)
def g2 : Nat → Option Handle := sg g1 0 (some ⟨some ⟨1, .split, 0⟩, ⟨4, 1⟩⟩)
def g3 : Nat → Option Handle := sg g2 1 (some ⟨some ⟨6, .split, 0⟩, ⟨8, 1⟩⟩)
def g4 : Nat → Option Handle := sg g3 2 (some ⟨some ⟨10, .split, 0⟩, ⟨12, 1⟩⟩)
def g6 : Nat → Option Handle := sg g4 0 none
def g7 : Nat → Option Handle := sg g6 2 none
def g8 : Nat → Option Handle := sg g7 1 none

def b10 : Backend Nat := .split ⟨0, 1, 1, ⟨9, 1, [7]⟩, ⟨12, 2, [⟨9, 0⟩, ⟨9, 1⟩]⟩⟩
def b6 : Backend Nat := .split ⟨0, 0, 0, ⟨5, 1, [7]⟩, ⟨8, 2, [⟨5, 0⟩, ⟨5, 1⟩]⟩⟩

def h1 : Heap Nat := ⟨[(3, 0), (2, 0), (1, 0)], [(1, .split ⟨0, 0, 0, ⟨2, 1, []⟩, ⟨3, 1, [⟨2, 0⟩]⟩⟩)], (Vec.nil, 0), g1⟩
def h2 : Heap Nat := ⟨[(4, 0), (2, 0), (1, 0)], [(1, .split ⟨0, 0, 0, ⟨2, 1, [7]⟩, ⟨4, 2, [⟨2, 0⟩, ⟨2, 1⟩]⟩⟩)], (Vec.nil, 0), g2⟩
def h3 : Heap Nat := ⟨[(8, 0), (6, 0), (5, 0), (4, 0), (2, 0), (1, 0)], [(6, b6), (1, .split ⟨0, 0, 0, ⟨2, 1, [7]⟩, ⟨4, 2, [⟨2, 0⟩, ⟨2, 1⟩]⟩⟩)], (Vec.nil, 0), g3⟩
def h4 : Heap Nat :=
  ⟨[(12, 1), (10, 1), (9, 1), (8, 0), (6, 0), (5, 0), (4, 0), (2, 0), (1, 0)], [(10, b10), (6, b6), (1, .split ⟨0, 0, 0, ⟨2, 1, []⟩, ⟨4, 2, [⟨2, 0⟩, ⟨2, 1⟩]⟩⟩)], (Vec.nil, 0), g4⟩
def h6 : Heap Nat := ⟨[(12, 1), (10, 1), (9, 1), (8, 0), (6, 0), (5, 0)], [(10, b10), (6, b6)], (Vec.nil, 0), g6⟩
def h7 : Heap Nat := ⟨[(8, 0), (6, 0), (5, 0)], [(6, b6)], (Vec.nil, 0), g7⟩
def h8 : Heap Nat := ⟨[], [], (Vec.nil, 0), g8⟩

theorem hstep1 : HOp.run EF (.make 0 .split 0 0) Heap.start ⟨1, 0⟩ = .ok () h1 ⟨4, 3⟩ := rfl
theorem hstep2 : HOp.run EF (.call 0 (.pushBack (.emplaced 7))) h1 ⟨4, 3⟩ = .ok () h2 ⟨5, 5⟩ := rfl
theorem hstep3 : HOp.run EF (.copy 1 0) h2 ⟨5, 5⟩ = .ok () h3 ⟨9, 9⟩ := rfl
theorem hstep4 : HOp.run EF (.moveAl 2 0 1) h3 ⟨9, 9⟩ = .ok () h4 ⟨13, 13⟩ := rfl
theorem hstep5 : HOp.run EF (.assign 1 2) h4 ⟨13, 13⟩ = .exc .badAlloc h4 ⟨14, 15⟩ := rfl
theorem hstep6 : HOp.run EF (.destroy 0) h4 ⟨14, 15⟩ = .ok () h6 ⟨14, 15⟩ := rfl
theorem hstep7 : HOp.run EF (.destroy 2) h6 ⟨14, 15⟩ = .ok () h7 ⟨14, 15⟩ := rfl
theorem hstep8 : HOp.run EF (.destroy 1) h7 ⟨14, 15⟩ = .ok () h8 ⟨14, 15⟩ := rfl

theorem all_ok {X : Type} {f : HOp Nat → Prog X Unit} {op : HOp Nat} {ops : List (HOp Nat)} {x x' x'' : X} {w w' w'' : World} {rs : List (Option Exc)}
    (h : f op x w = .ok () x' w') (hs : HOp.all f ops x' w' = .ok rs x'' w'') : HOp.all f (op :: ops) x w = .ok (none :: rs) x'' w'' := by
  unfold HOp.all
  simp only [bind, Prog.bind, h, hs]
  rfl
theorem all_exc {X : Type} {f : HOp Nat → Prog X Unit} {op : HOp Nat} {ops : List (HOp Nat)} {x x' x'' : X} {w w' w'' : World} {rs : List (Option Exc)} {e : Exc}
    (h : f op x w = .exc e x' w') (hs : HOp.all f ops x' w' = .ok rs x'' w'') : HOp.all f (op :: ops) x w = .ok (some e :: rs) x'' w'' := by
  unfold HOp.all
  simp only [bind, Prog.bind, h, hs]
  rfl

theorem segRun4 : HOp.all (HOp.run EF) (segOps.take 4) Heap.start ⟨1, 0⟩ = .ok [none, none, none, none] h4 ⟨13, 13⟩ :=
  all_ok hstep1 (all_ok hstep2 (all_ok hstep3 (all_ok hstep4 rfl)))
theorem segRun7 : HOp.all (HOp.run EF) (segOps.take 7) Heap.start ⟨1, 0⟩ = .ok [none, none, none, none, some .badAlloc, none, none] h7 ⟨14, 15⟩ :=
  all_ok hstep1 (all_ok hstep2 (all_ok hstep3 (all_ok hstep4 (all_exc hstep5 (all_ok hstep6 (all_ok hstep7 rfl))))))
theorem segRun8 : HOp.all (HOp.run EF) segOps Heap.start ⟨1, 0⟩ = .ok [none, none, none, none, some .badAlloc, none, none, none] h8 ⟨14, 15⟩ :=
  all_ok hstep1 (all_ok hstep2 (all_ok hstep3 (all_ok hstep4 (all_exc hstep5 (all_ok hstep6 (all_ok hstep7 (all_ok hstep8 rfl)))))))

theorem segFine (ops : List (HOp Nat)) : ∀ op ∈ ops, op.Fine EF := by
  intro op _
  cases op <;> first | exact trivial | exact fun _ => rfl | exact fun _ _ => rfl

end Sample

namespace Props
open PolyColl Prog Sample

/-- With pointers, allocators and deleters the program does the same as with segments as values: it throws the same exceptions and ends with the same segments, and
what it does with the storage is never undefined.

Partial: copies without an allocator, and copy assignment that propagates the allocator, only if `select_on_container_copy_construction` returns
the same allocator; otherwise see `C74_copy_undefined`. -/
theorem C74_same_partial (ops : List (HOp V)) {w : World} (hw : 0 < w.next) (hf : ∀ op ∈ ops, op.Fine E) :
    Heap.seen (HOp.all (HOp.run E) ops Heap.start w) = HOp.all (HOp.value E) ops (fun _ => none) w := by
  have hs := HOp.all_sim (E := E) hf (HOp.inv_start hw)
  have h0 : (Heap.start : Heap V).abs = fun _ => none := rfl
  rw [h0] at hs
  unfold Sim at hs
  cases h1 : HOp.all (HOp.run E) ops Heap.start w <;> cases h2 : HOp.all (HOp.value E) ops (fun _ => none) w <;> simp only [h1, h2] at hs
  · obtain ⟨rfl, rfl, -, rfl⟩ := hs
    rw [← Heap.sees_eq]
    rfl
  · exact hs.2.2.elim
  · rfl

example : HOp.all (HOp.value EF) segOps (fun _ => none) ⟨1, 0⟩ = Heap.seen (.ok [none, none, none, none, some .badAlloc, none, none, none] h8 ⟨14, 15⟩) := by
  rw [← segRun8]
  exact (C74_same_partial segOps (by decide) (segFine _)).symm

theorem all_inv {ops : List (HOp V)} {w w' : World} {r : List (Option Exc)} {h : Heap V} (hw : 0 < w.next) (hf : ∀ op ∈ ops, op.Fine E) (hr : HOp.all (HOp.run E) ops Heap.start w = .ok r h w') : h.Inv w' := by
  have hs := HOp.all_sim (E := E) hf (HOp.inv_start hw)
  unfold Sim at hs
  rw [hr] at hs
  cases h2 : HOp.all (HOp.value E) ops (Heap.start : Heap V).abs w <;> simp only [h2] at hs
  exact hs.2.2.1

/-- The storage in use is what the segments need, from the allocators they use; nothing is lost and nothing is obtained twice, even if operations
have thrown.  No two segments need the same block.

Partial as `C74_same_partial`. -/
theorem C74_storage_partial {ops : List (HOp V)} {w w' : World} {r : List (Option Exc)} {h : Heap V} (hw : 0 < w.next) (hf : ∀ op ∈ ops, op.Fine E)
    (hr : HOp.all (HOp.run E) ops Heap.start w = .ok r h w') :
    (∀ b al, (b, al) ∈ h.blocks ↔ ∃ i, h.Needs i b al) ∧ (h.blocks.map Prod.fst).Nodup ∧ ∀ i j b al al', h.Needs i b al → h.Needs j b al' → i = j := by
  have hi := all_inv hw hf hr
  have hn := Heap.keys_nodup hi.acc
  refine ⟨fun b al => ?_, (hi.acc.perm.map _).nodup_iff.2 hi.acc.nodup, ?_⟩
  · rw [hi.acc.perm.mem_iff, Heap.mem_holds]
    constructor
    · rintro ⟨p, hp, h1, h2⟩
      obtain ⟨i, s, o, g1, g2, g3⟩ := hi.own.all p hp
      exact ⟨i, p.1, p.2, Heap.has_iff.2 ⟨s, o, g1, g2, g3, Heap.lookup_of_mem hn hp⟩, h1, h2⟩
    · rintro ⟨i, a, x, ⟨o, q, -, -, h2⟩, h3, h4⟩
      exact ⟨(a, x), Heap.mem_of_lookup h2, h3, h4⟩
  · rintro i j b al al' ⟨a, x, ⟨o, q, g1, g2, g3⟩, -, g4⟩ ⟨a', x', ⟨o', q', g1', g2', g3'⟩, -, g4'⟩
    have := Heap.holds_unique hi.acc.nodup (Heap.mem_of_lookup g3) (Heap.mem_of_lookup g3') (b := b) g4 g4'
    exact hi.own.inj i j _ _ o o' g1 g1' rfl rfl (g2.trans ((congrArg Prod.fst this).trans g2'.symm))

/-- Of the three objects that were made one is left: its storage is block 6, its buffers are 5 and 8. -/
example : h7.blocks = [(8, 0), (6, 0), (5, 0)] ∧ ∀ b al, (b, al) ∈ h7.blocks ↔ ∃ i, h7.Needs i b al :=
  ⟨rfl, (C74_storage_partial (by decide) (segFine _) segRun7).1⟩

/-- The deleter of each `unique_ptr` is that of the class of its object.

Partial as `C74_same_partial`. -/
theorem C74_deleter_partial {ops : List (HOp V)} {w w' : World} {r : List (Option Exc)} {h : Heap V} (hw : 0 < w.next) (hf : ∀ op ∈ ops, op.Fine E)
    (hr : HOp.all (HOp.run E) ops Heap.start w = .ok r h w') {i : Nat} {o : Owner} {q : Ptr} (hs : h.segs i = some ⟨some o, q⟩) :
    ∃ x, h.objs.lookup o.addr = some x ∧ x.kind = o.kind ∧ x.ty = o.ty := (all_inv hw hf hr).own.has i _ o hs rfl

example : ∃ x, h4.objs.lookup 10 = some x ∧ x.kind = .split ∧ x.ty = 0 :=
  C74_deleter_partial (i := 2) (o := ⟨10, .split, 0⟩) (q := ⟨12, 1⟩) (by decide) (segFine _) segRun4 rfl

/-- When no segment is left, all storage has been returned and all segment objects are destroyed.

Partial as `C74_same_partial`. -/
theorem C74_nothing_left_partial {ops : List (HOp V)} {w w' : World} {r : List (Option Exc)} {h : Heap V} (hw : 0 < w.next) (hf : ∀ op ∈ ops, op.Fine E)
    (hr : HOp.all (HOp.run E) ops Heap.start w = .ok r h w') (hn : ∀ i o q, h.segs i ≠ some ⟨some o, q⟩) : h.blocks = [] ∧ h.objs = [] := by
  have hi := all_inv hw hf hr
  have ho : h.objs = [] := by
    refine List.eq_nil_iff_forall_not_mem.2 fun p hp => ?_
    obtain ⟨i, ⟨p', q⟩, o, g1, g2, -⟩ := hi.own.all p hp
    dsimp only at g2
    exact hn i o q (g2 ▸ g1)
  refine ⟨?_, ho⟩
  have := hi.acc.perm
  rw [ho] at this
  exact this.eq_nil

/-- The assignment throws and then all segments are destroyed. -/
example : h8.blocks = [] ∧ h8.objs = [] :=
  C74_nothing_left_partial (by decide) (segFine _) segRun8 fun i o q h => by
    simp only [h8, g8, g7, g6, g4, g3, g2, g1, sg] at h
    split at h
    · cases h
    · split at h
      · cases h
      · split at h
        · cases h
        · simp_all

/-- Destroying a segment is always possible and never throws.

Partial as `C74_same_partial`. -/
theorem C74_destroy_partial {ops : List (HOp V)} {w w' : World} {r : List (Option Exc)} {h : Heap V} (hw : 0 < w.next) (hf : ∀ op ∈ ops, op.Fine E)
    (hr : HOp.all (HOp.run E) ops Heap.start w = .ok r h w') {i : Nat} (hs : h.segs i ≠ none) :
    ∃ h', HOp.run E (.destroy i) h w' = .ok () h' w' ∧ h'.segs i = none ∧ (∀ j, j ≠ i → h'.sees j = h.sees j) ∧ ∀ b al, (b, al) ∈ h.blocks → h.Needs i b al → (b, al) ∉ h'.blocks := by
  have hi := all_inv hw hf hr
  obtain ⟨s, hs⟩ := Option.ne_none_iff_exists'.1 hs
  obtain ⟨h', e, g1, g2⟩ := Heap.destroy_ok hi hs
  have hnone : h'.segs i = none := by
    have := congrFun g2 i
    unfold Heap.abs Vars.upd at this
    simpa using this
  refine ⟨h', ?_, hnone, fun j hj => ?_, ?_⟩
  · unfold HOp.run
    simp only [bind, Prog.bind, Heap.handle_ok hs]
    exact e
  · rw [Heap.sees_eq, Heap.sees_eq, g2]
    unfold Vars.upd
    rw [if_neg hj]
  · rintro b al hb ⟨a, x, ⟨o, q, h1, rfl, h3⟩, h4, h5⟩ hb'
    obtain rfl : s = ⟨some o, q⟩ := Option.some.inj (hs.symm.trans h1)
    obtain ⟨B, e2, -⟩ := Heap.delete_ok (h := h) (o := o) (b := x) hi.acc h3 (by obtain ⟨y, k1, k2, k3⟩ := hi.own.has i _ o h1 rfl; rw [h3] at k1; cases k1; exact k2)
      (by obtain ⟨y, k1, k2, k3⟩ := hi.own.has i _ o h1 rfl; rw [h3] at k1; cases k1; exact k3)
    have ho : h'.objs = Heap.del o.addr h.objs := by
      simp only [bind, Prog.bind, Heap.deletePtr, e2] at e
      cases e
      rfl
    rw [g1.acc.perm.mem_iff, Heap.mem_holds] at hb'
    obtain ⟨p, hp, -, h6⟩ := hb'
    rw [ho] at hp
    obtain ⟨hp1, hp2⟩ := List.mem_filter.1 hp
    have := Heap.holds_unique hi.acc.nodup (Heap.mem_of_lookup h3) hp1 (b := b) h5 h6
    rw [← this] at hp2
    simp at hp2

example : ∃ h', HOp.run EF (.destroy 1) h4 ⟨13, 13⟩ = .ok () h' ⟨13, 13⟩ ∧ h'.segs 1 = none := by
  obtain ⟨h', g1, g2, -⟩ := C74_destroy_partial (i := 1) (by decide) (segFine _) segRun4 (show h4.segs 1 ≠ none from fun h => by cases h)
  exact ⟨h', g1, g2⟩

/-- If `make`, `make_from_prototype`, a copy constructor or the copy assignment throws, there are the same objects and the same segments as
before, and all storage obtained meanwhile has been returned.

Partial as `C74_same_partial`. -/
theorem C74_failed_partial {ops : List (HOp V)} {w w' w'' : World} {r : List (Option Exc)} {h h' : Heap V} {op : HOp V} {e : Exc} (hw : 0 < w.next) (hf : ∀ op ∈ ops, op.Fine E)
    (hr : HOp.all (HOp.run E) ops Heap.start w = .ok r h w') (ho : op.Fine E) (hst : op.Strong) (hx : op.run E h w' = .exc e h' w'') :
    h'.objs = h.objs ∧ h'.segs = h.segs ∧ h'.blocks.Perm h.blocks := by
  have hi := all_inv hw hf hr
  have hs := HOp.sim (E := E) ho hi
  unfold Sim at hs
  rw [hx] at hs
  cases h2 : op.value E h.abs w' <;> simp only [h2] at hs
  obtain ⟨-, -, ⟨g1, -⟩, g2⟩ := hs
  have g2 := g2 hst
  refine ⟨g2.1, g2.2, g1.acc.perm.trans ?_⟩
  rw [g2.1]
  exact hi.acc.perm.symm

/-- The second allocation of the assignment fails. -/
example : HOp.run EF (.assign 1 2) h4 ⟨13, 13⟩ = .exc .badAlloc h4 ⟨14, 15⟩ ∧ h4.blocks.Perm h4.blocks :=
  ⟨hstep5, (C74_failed_partial (by decide) (segFine _) segRun4 (segFine [.assign 1 2] _ (.head _)) trivial hstep5).2.2⟩

/-- Without the condition: `copy()` obtains the storage of the new object from the allocator of the old one, but `delete_` returns it to the
allocator that `select_on_container_copy_construction` gave to the new vector.  Destroying the copy is undefined. -/
theorem C74_copy_undefined : ∃ (E : Env Nat) (ops : List (HOp Nat)), HOp.all (HOp.run E) ops Heap.start ⟨1, 0⟩ = .ub ∧
    (HOp.all (HOp.value E) ops (fun _ => none) ⟨1, 0⟩ ≠ .ub) ∧ ∀ al, E.soccc al ≠ al :=
  ⟨Sample.E0, [.make 0 .packed 0 0, .copy 1 0, .destroy 1], rfl, (fun h => by cases h), fun al h => absurd (Nat.add_left_cancel (n := al) (m := 10) (k := 0) h) (by decide)⟩

end Props
end PolyColl
