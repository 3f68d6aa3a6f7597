import Verif.Model.Construct
import Verif.Model.TypeInfoMap
/-!
# Uses-allocator construction (C78)
-/

namespace PolyColl.Props
open PolyColl Construct

/-! ### What the standard says -/

/-- Uses-allocator construction of a `t` that is not a pair ([allocator.uses.construction]): the arguments its constructor is called with. -/
inductive PassesAllocator (S : Types) (t : Typ) (args : List CArg) : List CArg → Prop where
  /-- the type does not use allocators -/
  | without (h : S.usesAllocator t = false) : PassesAllocator S t args args
  /-- `T(std::allocator_arg,al,args...)` -/
  | leading (h : S.usesAllocator t = true) (hc : S.constructible t ([.allocArg, .adaptor] ++ args) = true) : PassesAllocator S t args ([.allocArg, .adaptor] ++ args)
  /-- `T(args...,al)` -/
  | trailing (h : S.usesAllocator t = true) (hc : S.constructible t ([.allocArg, .adaptor] ++ args) = false) : PassesAllocator S t args (args ++ [.adaptor])

/-- The arguments of the constructors of `std::pair` and what the members are constructed from. -/
inductive Distributes : Args → List CArg → List CArg → Prop where
  | default : Distributes (.plain []) [] []
  | two (x y : CArg) : Distributes (.plain [x, y]) [x] [y]
  | copy (r : Ref) (u v : Typ) : Distributes (.plain [.obj r (.pair u v) .constLvalue]) [.obj (.first r) u .constLvalue] [.obj (.second r) v .constLvalue]
  | lvalue (r : Ref) (u v : Typ) : Distributes (.plain [.obj r (.pair u v) .lvalue]) [.obj (.first r) u .lvalue] [.obj (.second r) v .lvalue]
  | move (r : Ref) (u v : Typ) : Distributes (.plain [.obj r (.pair u v) .rvalue]) [.obj (.first r) u .rvalue] [.obj (.second r) v .rvalue]
  | piecewise (xs ys : List CArg) : Distributes (.piecewise xs ys) xs ys

/-- No argument is an lvalue of a pair type without `const`. -/
def NotLvaluePair : Args → Prop
  | .plain [.obj _ (.pair _ _) .lvalue] => False
  | _ => True

variable {S : Types}

theorem transform_uses (t : Typ) (xs : List CArg) : PassesAllocator S t xs (transformTuple (usesAllocCtor S t xs) xs) := by
  unfold usesAllocCtor
  cases hu : S.usesAllocator t with
  | false => exact .without hu
  | true =>
    cases hc : S.constructible t (.allocArg :: .adaptor :: xs) with
    | true => exact .leading hu hc
    | false => exact .trailing hu hc

/-- A type that is neither a pair nor a `value_holder` is created by uses-allocator construction with the adaptor. -/
theorem C78_object (i : Nat) (args : List CArg) : ∃ args', construct S (.other i) (.plain args) = .object (.other i) args' ∧
    PassesAllocator S (.other i) args args' := by
  refine ⟨transformTuple (usesAllocCtor S (.other i) args) args, ?_, transform_uses _ _⟩
  show construct_ (usesAllocCtor S (.other i) args) (.other i) args = _
  unfold construct_ transformTuple
  split <;> rfl

/-- A `value_holder` is created with the user's allocator, not the adaptor, and with the arguments as they are. -/
theorem C78_holder (i : Nat) (args : List CArg) : construct S (.holder i) (.plain args) = .holder i args := rfl

/-- Each member of a pair is created by uses-allocator construction from the arguments meant for it, which keep their value category.

Partial: not for a pair that is a non-const lvalue, see `C78_lvalue_pair`; nor is a member that is itself a pair treated as the standard does
since C++20: it is constructed without the adaptor, as `std::uses_allocator` does not hold for pairs. -/
theorem C78_pair_partial {a b : Typ} {args : Args} {xs ys : List CArg} (hd : Distributes args xs ys) (hl : NotLvaluePair args) :
    ∃ xs' ys', construct S (.pair a b) args = .pieces a b xs' ys' ∧ PassesAllocator S a xs xs' ∧ PassesAllocator S b ys ys' := by
  cases hd with
  | lvalue => exact hl.elim
  | _ => exact ⟨_, _, rfl, transform_uses _ _, transform_uses _ _⟩

/-- Negation for the remaining case: the general overload is the better match, and the pair is copied without the adaptor, so that members that use
allocators do not get one. -/
theorem C78_lvalue_pair (a b u v : Typ) (r : Ref) :
    construct S (.pair a b) (.plain [.obj r (.pair u v) .lvalue]) = .object (.pair a b) [.obj r (.pair u v) .lvalue] := by
  show construct_ (usesAllocCtor S (.pair a b) _) (.pair a b) _ = _
  unfold usesAllocCtor
  rw [S.pair_uses]
  rfl

/-! ### The map of segments -/

/-- Ways in which a map creates its elements: from a key and a segment (`emplace(&key,std::move(x))`), also piecewise; from an element of
another map, copied or moved. -/
inductive MapArgs : Cat → Args → Prop where
  | emplace (k s : Ref) (c : Cat) : MapArgs c (.plain [.obj k key .rvalue, .obj s segment c])
  | pieces (k s : Ref) (c : Cat) : MapArgs c (.piecewise [.obj k key .rvalue] [.obj s segment c])
  | copy (r : Ref) : MapArgs .constLvalue (.plain [.obj r (.pair key segment) .constLvalue])
  | move (r : Ref) : MapArgs .rvalue (.plain [.obj r (.pair key segment) .rvalue])

variable {V : Type} {E : Env V}

/-- The segments in the map are always created by the constructors of `segment` that take an allocator, with that of the map: moved if given as an
rvalue, else copied.  

Partial: not for elements that are non-const lvalues, see `C78_segment_lvalue`. -/
theorem C78_segment_partial (al : Alloc) {c : Cat} {args : Args} (h : MapArgs c args) :
    nodeSegment E al (construct mapTypes (.pair key segment) args) =
      if c = .rvalue then Seg.moveAl E al else (do let x ← Prog.get; Seg.copyAl E x al : Prog (Seg V) (Seg V)) := by
  cases h with
  | emplace k s c => cases c <;> rfl
  | pieces k s c => cases c <;> rfl
  | copy r => rfl
  | move r => rfl

/-- The constructors of `segment` and those only: with a segment, and with a segment and an allocator. -/
theorem C78_constructors (args : List CArg) : mapTypes.constructible segment args = true ↔
    ∃ r c, args = [.obj r segment c] ∨ args = [.obj r segment c, .adaptor] := by
  have hs : ∀ x, isSegment x = true ↔ ∃ r c, x = .obj r segment c := by
    intro x
    cases x with
    | obj r t c => exact ⟨fun h => ⟨r, c, by rw [eq_of_beq (h : (t == segment) = true)]⟩, fun ⟨_, _, h⟩ => by cases h; rfl⟩
    | allocArg => exact ⟨fun h => Bool.noConfusion h, fun ⟨_, _, h⟩ => CArg.noConfusion h⟩
    | adaptor => exact ⟨fun h => Bool.noConfusion h, fun ⟨_, _, h⟩ => CArg.noConfusion h⟩
  constructor
  · intro h
    match args, h with
    | [x], h =>
      obtain ⟨r, c, rfl⟩ := (hs x).1 h
      exact ⟨r, c, Or.inl rfl⟩
    | [x, .adaptor], h =>
      obtain ⟨r, c, rfl⟩ := (hs x).1 h
      exact ⟨r, c, Or.inr rfl⟩
  · rintro ⟨r, c, rfl | rfl⟩ <;> rfl

/-- The members of the pair are created by constructors that there are. -/
theorem C78_well_formed {c : Cat} {args : Args} (h : MapArgs c args) :
    ∃ xs ys, construct mapTypes (.pair key segment) args = .pieces key segment xs ys ∧ mapTypes.constructible key xs = true ∧
      mapTypes.constructible segment ys = true := by
  cases h <;> exact ⟨_, _, rfl, rfl, rfl⟩

/-- Without an allocator a segment is copied with the one that `select_on_container_copy_construction` returns. -/
theorem C78_segment_copy (al : Alloc) (r : Ref) (c : Cat) (hc : c ≠ .rvalue) :
    segmentCtor E al [.obj r segment c] = (do let x ← Prog.get; Seg.copy E x : Prog (Seg V) (Seg V)) := by
  cases c
  · rfl
  · rfl
  · exact absurd rfl hc

/-- Negation for the remaining case: the segment is copied with whatever allocator `select_on_container_copy_construction` returns. -/
theorem C78_segment_lvalue (al : Alloc) (r : Ref) :
    nodeSegment E al (construct mapTypes (.pair key segment) (.plain [.obj r (.pair key segment) .lvalue])) =
      (do let x ← Prog.get; Seg.copy E x : Prog (Seg V) (Seg V)) := rfl

/-- The element `TMap.mapEmplace` creates is the one `construct` creates for `emplace(key,std::move(x))`. -/
theorem C78_mapEmplace (k s : Ref) (ti : TI) (x : Seg V) : TMap.mapEmplace E ti x = (do
    let m ← Prog.get
    let (i, s) ← Prog.locally x (do
      let i ← E.alloc
      let s ← nodeSegment E m.al (construct mapTypes (.pair key segment) (.plain [.obj k key .rvalue, .obj s segment .rvalue]))
      return (i, s)) fun r _ => r
    match m.nodes.find? (fun n => E.tiTy n.key == E.tiTy ti) with
    | some n => return m.itTo n
    | none =>
      let w ← Prog.world
      let c := E.newBuckets w.tick m.buckets
      let g := if c = m.buckets then m.gen else m.gen + 1
      if c ≠ m.buckets then let _ ← E.alloc
      Prog.set { m with nodes := E.shuffle w.tick (m.nodes ++ [⟨i, ti, s⟩]), buckets := c, gen := g }
      return ⟨some i, g⟩) := rfl

/-- So are those `TMap.moveNodes` creates, from `std::move` of elements of another map, -/
theorem C78_moveNodes (r : Ref) (al : Alloc) (n : Node V) (w : World) : TMap.moveNodes E al [n] w =
    match (do
      let i ← E.alloc
      let s ← nodeSegment E al (construct mapTypes (.pair key segment) (.plain [.obj r (.pair key segment) .rvalue]))
      return (i, s) : Prog (Seg V) (Nat × Seg V)) n.seg w with
    | .ok (i, s) src w' => .ok [⟨i, n.key, s⟩] [{ n with seg := src }] w'
    | .exc e src w' => .exc e [{ n with seg := src }] w'
    | .ub => .ub := rfl

/-- and `TMap.copyNodes`, from const elements. -/
theorem C78_copyNodes (r : Ref) (al : Alloc) (n : Node V) : TMap.copyNodes E al [n] n.seg = (do
    let i ← E.alloc
    let s ← nodeSegment E al (construct mapTypes (.pair key segment) (.plain [.obj r (.pair key segment) .constLvalue]))
    return [⟨i, n.key, s⟩] : Prog (Seg V) (List (Node V))) n.seg := by
  funext w
  show (E.alloc >>= _ : Prog (Seg V) _) n.seg w = (E.alloc >>= _ : Prog (Seg V) _) n.seg w
  simp only [bind, Prog.bind, Env.alloc]
  split <;> rename_i h
  · split at h
    · cases h
    · cases h
      rfl
  · rfl
  · rfl

/-- Keys are copied as they are. -/
example (k s : Ref) : construct mapTypes (.pair key segment) (.plain [.obj k key .rvalue, .obj s segment .rvalue]) =
    .pieces key segment [.obj k key .rvalue] [.obj s segment .rvalue, .adaptor] := rfl

/-- Types of which the first takes the allocator first, the second takes it last and the others do not use it. -/
def sampleTypes : Types where
  usesAllocator t := t == .other 0 || t == .other 1
  constructible t args := match args with
    | .allocArg :: _ => t == .other 0
    | _ => true
  pair_uses _ _ := rfl

/-- All three ways. -/
example : construct sampleTypes (.pair (.other 0) (.other 1)) (.plain [.obj (.var 0) (.pair (.other 0) (.other 2)) .constLvalue]) =
      .pieces (.other 0) (.other 1) [.allocArg, .adaptor, .obj (.first (.var 0)) (.other 0) .constLvalue] [.obj (.second (.var 0)) (.other 2) .constLvalue, .adaptor] ∧
    construct sampleTypes (.other 2) (.plain [.obj (.var 0) (.other 2) .rvalue]) = .object (.other 2) [.obj (.var 0) (.other 2) .rvalue] ∧
    Distributes (.plain [.obj (.var 0) (.pair (.other 0) (.other 2)) .constLvalue]) [.obj (.first (.var 0)) (.other 0) .constLvalue]
      [.obj (.second (.var 0)) (.other 2) .constLvalue] ∧ NotLvaluePair (.plain [.obj (.var 0) (.pair (.other 0) (.other 2)) .constLvalue]) :=
  ⟨rfl, rfl, .copy _ _ _, trivial⟩

end PolyColl.Props
