import Verif.Model.Segment
import Verif.Lemmas.SplitMake
/-! # Segments: invariant and what the operations guarantee -/

namespace PolyColl
open Prog

namespace Backend
variable {V : Type} (E : Env V)

/-- Invariant of a backend. -/
def Inv (b : Backend V) (w : World) : Prop :=
  match b with
  | .packed x => x.s.WF w
  | .split x => x.Inv E w

/-- The buffers a backend owns. -/
def blocks : Backend V → List Nat
  | .packed x => [x.s.blk]
  | .split x => [x.s.blk, x.i.blk]

/-- The index (if any) has room for as many entries as the store has room for elements. -/
def Roomy : Backend V → Prop
  | .packed _ => True
  | .split x => x.Room

def objAl : Backend V → Alloc
  | .packed x => x.objAl
  | .split x => x.objAl

theorem Inv.weaken {b : Backend V} {w w' : World} (h : b.Inv E w) (hw : w.next ≤ w'.next) : b.Inv E w' := by
  cases b
  · exact Vec.WF.weaken h hw
  · exact Split.Inv.weaken E h hw

theorem Inv.store {b : Backend V} {w : World} (h : b.Inv E w) : b.store.WF w := by
  cases b
  · exact h
  · exact Split.Inv.swf h

/-- What is left of the invariant after any failure. -/
def Weak (b : Backend V) (w : World) : Prop :=
  match b with
  | .packed x => x.s.WF w
  | .split x => x.Weak E w

theorem Inv.weak {b : Backend V} {w : World} (h : b.Inv E w) : b.Weak E w := by
  cases b
  · exact h
  · exact Split.Inv.weak E h

theorem Weak.weaken {b : Backend V} {w w' : World} (h : b.Weak E w) (hw : w.next ≤ w'.next) : b.Weak E w' := by
  cases b
  · exact Vec.WF.weaken h hw
  · exact Split.Weak.weaken E h hw

variable {α : Type} {w : World} {Q : α → Backend V → World → Prop} {R : Exc → Backend V → World → Prop}

theorem run_packed {f : Prog (Packed V) α} {g : Prog (Split V) α} {x : Packed V} :
    Runs (run f g) (.packed x) w Q R ↔
      Runs f x w (fun a y w' => Q a (.packed y) w') (fun e y w' => R e (.packed y) w') := by
  unfold Runs run
  dsimp only
  cases f x w <;> simp

theorem run_split {f : Prog (Packed V) α} {g : Prog (Split V) α} {x : Split V} :
    Runs (run f g) (.split x) w Q R ↔
      Runs g x w (fun a y w' => Q a (.split y) w') (fun e y w' => R e (.split y) w') := by
  unfold Runs run
  dsimp only
  cases g x w <;> simp

end Backend

namespace Seg
variable {V : Type} (E : Env V)

theorem runs_filterRange {p : Prog (Backend V) (Ptr × Ptr)} {x : Seg V} {w : World}
    {Q : Ptr → Seg V → World → Prop} {R : Exc → Seg V → World → Prop} :
    Runs (filterRange p) x w Q R ↔
      Runs p x.be w (fun r b w' => Q r.1 ⟨b, r.2⟩ w') (fun e b w' => R e ⟨b, x.snt⟩ w') := by
  unfold Runs filterRange
  cases p x.be w <;> simp

theorem runs_filterSentinel {p : Prog (Backend V) Ptr} {x : Seg V} {w : World}
    {Q : Unit → Seg V → World → Prop} {R : Exc → Seg V → World → Prop} :
    Runs (filterSentinel p) x w Q R ↔
      Runs p x.be w (fun r b w' => Q () ⟨b, r⟩ w') (fun e b w' => R e ⟨b, x.snt⟩ w') := by
  unfold Runs filterSentinel
  cases p x.be w <;> simp

/-- Invariant of a segment apart from the cached sentinel. -/
def Core (x : Seg V) (w : World) : Prop := x.be.Inv E w

/-- What is left of the invariant of a segment after any failure. -/
def Weak (x : Seg V) (w : World) : Prop := x.be.Weak E w

/-- The part of the invariant that a failure may destroy. -/
def Whole (x : Seg V) : Prop :=
  match x.be with
  | .packed _ => True
  | .split y => y.i.elems = Split.goodIndex y.s ∧ (ExactReserve E → y.s.cap + 1 ≤ y.i.cap ∨ (y.s.size = 0 ∧ y.s.cap ≤ 1))

theorem Core.whole {x : Seg V} {w : World} (h : x.Core E w) : x.Whole E := by
  obtain ⟨be, snt⟩ := x
  cases be with
  | packed y => trivial
  | split y => exact ⟨Split.Inv.idx h, Split.Inv.cap h⟩

theorem Weak.core {x : Seg V} {w : World} (h : x.Weak E w) (h' : x.Whole E) : x.Core E w := by
  obtain ⟨be, snt⟩ := x
  cases be with
  | packed y => exact h
  | split y =>
    have h : y.Weak E w := h
    exact ⟨h.swf, h.iwf, h.snz, h.ne, h'.1, h'.2⟩

theorem Weak.lt {x : Seg V} {w : World} (h : x.Weak E w) : ∀ b ∈ x.be.blocks, b < w.next := by
  obtain ⟨be, snt⟩ := x
  cases be with
  | packed y => intro b hb; simp [Backend.blocks] at hb; subst hb; exact Vec.WF.lt h
  | split y =>
    intro b hb
    have h1 := (Split.Weak.swf h).lt
    have h2 := (Split.Weak.iwf h).lt
    simp [Backend.blocks] at hb
    rcases hb with rfl | rfl <;> assumption

theorem Core.weak {x : Seg V} {w : World} (h : x.Core E w) : x.Weak E w := Backend.Inv.weak E h

/-- Invariant of a segment. -/
structure Inv (x : Seg V) (w : World) : Prop where
  core : x.Core E w
  snt : x.snt = x.end

theorem Inv.weaken {x : Seg V} {w w' : World} (h : x.Inv E w) (hw : w.next ≤ w'.next) : x.Inv E w' :=
  ⟨Backend.Inv.weaken E h.core hw, h.snt⟩

/-- The buffers a segment owns. -/
def blocks (x : Seg V) : List Nat := x.be.blocks

def Roomy (x : Seg V) : Prop := x.be.Roomy

/-- The base iterator to position `k`. -/
def base (x : Seg V) (k : Nat) : Ptr := ⟨x.begin.blk, k⟩

/-- The local iterator to position `k`. -/
def loc (x : Seg V) (k : Nat) : Ptr := x.be.store.ptr k

/-- What no operation changes, and where new buffers come from. -/
structure Step (w : World) (x x' : Seg V) : Prop where
  kind : x'.kind = x.kind
  ty : x'.ty = x.ty
  al : x'.al = x.al
  objAl : x'.objAl = x.objAl
  blocks : ∀ b ∈ x'.blocks, b ∈ x.blocks ∨ b = 0 ∨ w.next ≤ b

theorem Step.refl (w : World) (x : Seg V) : Step w x x :=
  ⟨rfl, rfl, rfl, rfl, fun _ h => Or.inl h⟩

theorem Step.trans {w w' : World} {x y z : Seg V} (h1 : Step w x y) (h2 : Step w' y z) (hw : w.next ≤ w'.next) :
    Step w x z :=
  ⟨h2.kind.trans h1.kind, h2.ty.trans h1.ty, h2.al.trans h1.al, h2.objAl.trans h1.objAl, fun b hb => by
    rcases h2.blocks b hb with h | h | h
    · exact h1.blocks b h
    · exact Or.inr (Or.inl h)
    · exact Or.inr (Or.inr (by omega))⟩

/-- Block 0 or below `next`. -/
theorem Core.lt {x : Seg V} {w : World} (h : x.Core E w) : ∀ b ∈ x.blocks, b < w.next := by
  obtain ⟨be, snt⟩ := x
  cases be with
  | packed y => intro b hb; simp [blocks, Backend.blocks] at hb; subst hb; exact Vec.WF.lt h
  | split y =>
    intro b hb
    have h1 := (Split.Inv.swf h).lt
    have h2 := (Split.Inv.iwf h).lt
    simp [blocks, Backend.blocks] at hb
    rcases hb with rfl | rfl <;> assumption

theorem base_zero (x : Seg V) : x.base 0 = x.begin := by
  obtain ⟨be, snt⟩ := x
  cases be <;> rfl

theorem end_eq (x : Seg V) : x.end = x.base x.size := by
  obtain ⟨be, snt⟩ := x
  cases be <;> rfl

theorem Core.le {x : Seg V} {w : World} (h : x.Core E w) : x.size ≤ x.capacity := (Backend.Inv.store E h).le

/-- A base iterator to an element refers to that element. -/
theorem derefBase {x : Seg V} {w : World} (h : x.Core E w) {k : Nat} (hk : k < x.size) :
    x.be.derefBase (x.base k) = x.elems[k]? := by
  obtain ⟨be, snt⟩ := x
  cases be with
  | packed y => simp [Backend.derefBase, base, begin, Backend.begin, Packed.begin, Packed.deref, Vec.ptr, Vec.deref, elems, Backend.store]
  | split y =>
    have h1 := Split.Inv.idx h
    simp only [size, Backend.store] at hk
    simp only [Backend.derefBase, base, begin, Backend.begin, Split.begin, Split.derefBase, Vec.ptr, elems, Backend.store]
    have : y.i.deref ⟨y.i.blk, k⟩ = some (y.s.ptr k) := by
      simp only [Vec.deref, if_pos, h1]
      exact Split.goodIndex_get (by omega)
    simp [this, Vec.deref_ptr]

theorem derefLocal (x : Seg V) (k : Nat) : x.be.derefLocal (x.loc k) = x.elems[k]? := Vec.deref_ptr

/-- Base to local conversion, also for the end position. -/
theorem toLocal {x : Seg V} {w : World} (h : x.Core E w) {k : Nat} (hk : k ≤ x.size) :
    x.be.toLocal (x.base k) = some (x.loc k) := by
  obtain ⟨be, snt⟩ := x
  cases be with
  | packed y => simp [Backend.toLocal, base, loc, begin, Backend.begin, Packed.begin, Vec.ptr, Backend.store]
  | split y =>
    have h1 := Split.Inv.idx h
    simp only [size, Backend.store] at hk
    simp only [Backend.toLocal, base, begin, Backend.begin, Split.begin, Split.toLocal, Vec.ptr, loc, Backend.store, Vec.deref, if_pos, h1]
    exact Split.goodIndex_get hk

/-- Result of an insertion of `vs` at position `k`. -/
structure Ins (x : Seg V) (w : World) (k : Nat) (vs : List V) (x' : Seg V) (w' : World) : Prop where
  inv : x'.Inv E w'
  step : Step w x x'
  next : w.next ≤ w'.next
  elems : x'.elems = x.elems.take k ++ vs ++ x.elems.drop k
  store : x.size + vs.length ≤ x.capacity → Vec.Same x.be.store x'.be.store
  begin : ExactReserve E → 0 < x.size → x.size + vs.length ≤ x.capacity → x'.begin = x.begin

/-- What a failed insertion leaves behind; `basic` tells whether elements had to be shifted by
operations that may throw. -/
structure Fail (x : Seg V) (w : World) (copies basic : Prop) (e : Exc) (x' : Seg V) (w' : World) : Prop where
  step : Step w x x'
  next : w.next ≤ w'.next
  exc : ExcFrom E x.ty copies (E.TooMany x.ty (x.size + 1)) e
  core : x.Roomy → ¬ basic → x'.Core E w' ∧ x'.elems = x.elems ∧ x'.snt = x.snt
  same : x.Roomy → ¬ basic → (x.kind = .packed ∨ x.size < x.capacity) → x' = x
  ncc : ∀ t, e = .notCopyConstructible t → x'.Core E w' ∧ x'.elems = x.elems
  weak : x'.Weak E w'

/-- What a failed insertion of a range of `m` elements leaves behind; `fwd` tells whether the range
can be traversed twice and is inserted at the end. -/
structure FailRange (x : Seg V) (w : World) (fwd copies : Prop) (m : Nat) (e : Exc) (x' : Seg V) (w' : World) : Prop where
  step : Step w x x'
  next : w.next ≤ w'.next
  exc : ExcFrom E x.ty copies (E.TooMany x.ty (x.size + m)) e
  same : fwd → (x.kind = .packed ∨ x.Roomy ∧ x.size + m ≤ x.capacity) → x' = x
  weak : x'.Weak E w'

/-- Result of removing elements. -/
structure Rem (x : Seg V) (w : World) (l : List V) (x' : Seg V) (w' : World) : Prop where
  inv : x'.Inv E w'
  step : Step w x x'
  next : w'.next = w.next
  elems : x'.elems = l
  store : Vec.Same x.be.store x'.be.store
  begin : x'.begin = x.begin

/-- What a failed erasure leaves behind. -/
structure RemFail (x : Seg V) (w : World) (e : Exc) (x' : Seg V) (w' : World) : Prop where
  throws : (E.traits x.ty).nothrowAssign = false
  exc : e = .user
  fault : ∃ n, E.fault n = true
  step : Step w x x'
  next : w'.next = w.next
  size : x'.size = x.size
  store : Vec.Same x.be.store x'.be.store
  begin : x'.begin = x.begin
  snt : x'.snt = x.snt
  weak : x'.Weak E w'

theorem Room.of_exact {x : Seg V} {w : World} (h : x.Core E w) (hx : ExactReserve E) (hs : 0 < x.size) :
    x.Roomy := by
  obtain ⟨be, snt⟩ := x
  cases be with
  | packed y => trivial
  | split y =>
    rcases Split.Inv.cap h hx with h1 | h1
    · exact h1
    · simp only [size, Backend.store] at hs; omega

/-! ### Conversions between the two layouts and the common specification -/

theorem stepSplit {y y' : Split V} {w : World} {p q : Ptr} (hf : Split.Frame y y') (hs : Vec.Grown w y.s y'.s)
    (hi : Vec.Grown w y.i y'.i) : Step w ⟨.split y, p⟩ ⟨.split y', q⟩ :=
  ⟨rfl, hf.1, hf.2.1, hf.2.2, by
    intro b hb
    simp only [blocks, Backend.blocks, List.mem_cons, List.not_mem_nil, or_false, Vec.Grown] at *
    rcases hb with rfl | rfl
    · rcases hs with h | h
      · exact Or.inl (Or.inl h)
      · exact Or.inr (Or.inr h)
    · rcases hi with h | h
      · exact Or.inl (Or.inr h)
      · exact Or.inr (Or.inr h)⟩

theorem stepPacked {y : Packed V} {s' : Vec V} {w : World} {p q : Ptr} (hs : s'.blk = y.s.blk ∨ s'.blk = 0 ∨ w.next ≤ s'.blk) :
    Step w ⟨.packed y, p⟩ ⟨.packed { y with s := s' }, q⟩ :=
  ⟨rfl, rfl, rfl, rfl, by
    intro b hb
    simp only [blocks, Backend.blocks, List.mem_singleton] at *
    subst hb
    exact hs⟩

theorem insSplit {y y' : Split V} {w w' : World} {k : Nat} {vs : List V} {p : Ptr} {x : Seg V} (hx : x = ⟨.split y, p⟩) (hi : y.Inv E w)
    (h : Split.InsertedList E y w k vs y' w') : Ins E x w k vs ⟨.split y', y'.sentinel⟩ w' := by
  subst hx
  refine ⟨⟨h.inv, rfl⟩, stepSplit h.frame h.gs h.gi, h.next, h.elems, h.sames, fun hx hp hc => ?_⟩
  have hr : y.Room := by
    rcases hi.cap hx with h1 | h1
    · exact h1
    · simp only [size, Backend.store] at hp; omega
  have := h.samei hc hr
  simp [begin, Backend.begin, Split.begin, Vec.ptr, this.1]

theorem inserted_list {y y' : Split V} {w w' : World} {k : Nat} {v : V} (hk : k ≤ y.s.size)
    (h : Split.Inserted E y w k v y' w') : Split.InsertedList E y w k [v] y' w' :=
  ⟨h.inv, h.frame, by rw [h.elems, Split.insertIdx_take_drop _ _ _ hk]; simp, h.next, h.gs, h.gi,
    fun hc => h.sames (by simp at hc; omega), fun hc => h.samei (by simp at hc; omega)⟩

theorem failSplit {y y' : Split V} {w w' : World} {c b : Prop} {e : Exc} {p : Ptr}
    (h : Split.Failed E y w c b e y' w') : Fail E ⟨.split y, p⟩ w c b e ⟨.split y', p⟩ w' :=
  ⟨stepSplit h.frame h.gs h.gi, h.next, h.exc, fun hr hb => ⟨(h.inv hr hb).1, (h.inv hr hb).2, rfl⟩,
    fun hr hb hc => by
      rcases hc with hc | hc
      · simp [kind, Backend.kind] at hc
      · rw [h.same hr hb hc], fun t he => h.ncc t he, h.weak⟩

end Seg
end PolyColl
