import Verif.Props.Sample
/-!
# Example collections

For each layout two collections are filled with elements of several types.  Every step of the
program is run; the definitions are its intermediate states.  Collection `c0` has elements of
types 0, 1 and 2 and an empty segment for type 5; collection `c1` has elements of types 0 and 3.
-/

namespace PolyColl.Sample
open PolyColl Prog

def pc1 : Coll Nat :=
  ⟨.packed, ⟨[⟨2, 10, ⟨.packed ⟨5, 0, 0, ⟨0, 0, []⟩⟩, ⟨0, 0⟩⟩⟩], 1, 1, 0, [(10, ⟨some 2, 1⟩)]⟩⟩
theorem pstep1 : COp.run E0 (.registerTypes [10]) (Coll.empty' .packed 0) ⟨1, 0⟩ = .ok () pc1 ⟨6, 5⟩ := rfl
def pc2 : Coll Nat :=
  ⟨.packed, ⟨[⟨7, 0, ⟨.packed ⟨0, 0, 0, ⟨11, 1, [1]⟩⟩, ⟨11, 1⟩⟩⟩, ⟨2, 10, ⟨.packed ⟨5, 0, 0, ⟨0, 0, []⟩⟩, ⟨0, 0⟩⟩⟩], 2, 2, 0, [(10, ⟨some 2, 2⟩), (0,
    ⟨some 7, 2⟩)]⟩⟩
theorem pstep2 : COp.run E0 (.emplace 0 (.emplaced 1)) pc1 ⟨6, 5⟩ = .ok () pc2 ⟨12, 12⟩ := rfl
def pc3 : Coll Nat :=
  ⟨.packed, ⟨[⟨7, 0, ⟨.packed ⟨0, 0, 0, ⟨13, 2, [1, 2]⟩⟩, ⟨13, 2⟩⟩⟩, ⟨2, 10, ⟨.packed ⟨5, 0, 0, ⟨0, 0, []⟩⟩, ⟨0, 0⟩⟩⟩], 2, 2, 0, [(10, ⟨some 2, 2⟩), (0,
    ⟨some 7, 2⟩), (1, ⟨some 7, 2⟩)]⟩⟩
theorem pstep3 : COp.run E0 (.emplace 1 (.copyExt 2)) pc2 ⟨12, 12⟩ = .ok () pc3 ⟨14, 14⟩ := rfl
def pc4 : Coll Nat :=
  ⟨.packed, ⟨[⟨15, 4, ⟨.packed ⟨2, 0, 0, ⟨19, 1, [7]⟩⟩, ⟨19, 1⟩⟩⟩, ⟨2, 10, ⟨.packed ⟨5, 0, 0, ⟨0, 0, []⟩⟩, ⟨0, 0⟩⟩⟩, ⟨7, 0, ⟨.packed ⟨0, 0, 0, ⟨13, 2,
    [1, 2]⟩⟩, ⟨13, 2⟩⟩⟩], 3, 3, 0, [(10, ⟨some 2, 3⟩), (0, ⟨some 7, 3⟩), (1, ⟨some 7, 3⟩), (4, ⟨some 15, 3⟩)]⟩⟩
theorem pstep4 : COp.run E0 (.emplace 4 (.emplaced 7)) pc3 ⟨14, 14⟩ = .ok () pc4 ⟨20, 21⟩ := rfl
def pc5 : Coll Nat :=
  ⟨.packed, ⟨[⟨21, 2, ⟨.packed ⟨1, 0, 0, ⟨25, 1, [9]⟩⟩, ⟨25, 1⟩⟩⟩, ⟨7, 0, ⟨.packed ⟨0, 0, 0, ⟨13, 2, [1, 2]⟩⟩, ⟨13, 2⟩⟩⟩, ⟨2, 10, ⟨.packed ⟨5, 0, 0, ⟨0,
    0, []⟩⟩, ⟨0, 0⟩⟩⟩, ⟨15, 4, ⟨.packed ⟨2, 0, 0, ⟨19, 1, [7]⟩⟩, ⟨19, 1⟩⟩⟩], 4, 4, 0, [(10, ⟨some 2, 4⟩), (0, ⟨some 7, 4⟩), (1, ⟨some 7, 4⟩), (4, ⟨some
    15, 4⟩), (2, ⟨some 21, 4⟩)]⟩⟩
theorem pstep5 : COp.run E0 (.emplace 2 (.moveExt 9)) pc4 ⟨20, 21⟩ = .ok () pc5 ⟨26, 27⟩ := rfl
def pc6 : Coll Nat :=
  ⟨.packed, ⟨[⟨21, 2, ⟨.packed ⟨1, 0, 0, ⟨25, 1, [9]⟩⟩, ⟨25, 1⟩⟩⟩, ⟨7, 0, ⟨.packed ⟨0, 0, 0, ⟨26, 4, [1, 2, 3]⟩⟩, ⟨26, 3⟩⟩⟩, ⟨2, 10, ⟨.packed ⟨5, 0, 0,
    ⟨0, 0, []⟩⟩, ⟨0, 0⟩⟩⟩, ⟨15, 4, ⟨.packed ⟨2, 0, 0, ⟨19, 1, [7]⟩⟩, ⟨19, 1⟩⟩⟩], 4, 4, 0, [(10, ⟨some 2, 4⟩), (0, ⟨some 7, 4⟩), (1, ⟨some 7, 4⟩), (4,
    ⟨some 15, 4⟩), (2, ⟨some 21, 4⟩)]⟩⟩
theorem pstep6 : COp.run E0 (.emplace 0 (.copyExt 3)) pc5 ⟨26, 27⟩ = .ok () pc6 ⟨27, 28⟩ := rfl
def pd1 : Coll Nat :=
  ⟨.packed, ⟨[⟨28, 0, ⟨.packed ⟨0, 1, 1, ⟨32, 1, [5]⟩⟩, ⟨32, 1⟩⟩⟩], 1, 1, 1, [(0, ⟨some 28, 1⟩)]⟩⟩
theorem pstep7 : COp.run E0 (.emplace 0 (.emplaced 5)) (Coll.empty' .packed 1) ⟨27, 28⟩ = .ok () pd1 ⟨33, 35⟩ := rfl
def pd2 : Coll Nat :=
  ⟨.packed, ⟨[⟨34, 6, ⟨.packed ⟨3, 1, 1, ⟨38, 1, [6]⟩⟩, ⟨38, 1⟩⟩⟩, ⟨28, 0, ⟨.packed ⟨0, 1, 1, ⟨32, 1, [5]⟩⟩, ⟨32, 1⟩⟩⟩], 2, 2, 1, [(0, ⟨some 28, 2⟩),
    (6, ⟨some 34, 2⟩)]⟩⟩
theorem pstep8 : COp.run E0 (.emplace 6 (.emplaced 6)) pd1 ⟨33, 35⟩ = .ok () pd2 ⟨39, 42⟩ := rfl
def pd3 : Coll Nat :=
  ⟨.packed, ⟨[⟨34, 6, ⟨.packed ⟨3, 1, 1, ⟨38, 1, [6]⟩⟩, ⟨38, 1⟩⟩⟩, ⟨28, 0, ⟨.packed ⟨0, 1, 1, ⟨39, 2, [5, 4]⟩⟩, ⟨39, 2⟩⟩⟩], 2, 2, 1, [(0, ⟨some 28, 2⟩),
    (6, ⟨some 34, 2⟩)]⟩⟩
theorem pstep9 : COp.run E0 (.emplace 0 (.emplaced 4)) pd2 ⟨39, 42⟩ = .ok () pd3 ⟨40, 44⟩ := rfl
theorem preach : Coll.Reachable2 E0 .packed pc6 pd3 ⟨40, 44⟩ :=
  open Coll in
  Reachable2.start sub (sub_ty _) 0 1
    |>.stepL (.registerTypes [10]) rfl pstep1
    |>.stepL (.emplace 0 (.emplaced 1)) rfl pstep2
    |>.stepL (.emplace 1 (.copyExt 2)) rfl pstep3
    |>.stepL (.emplace 4 (.emplaced 7)) rfl pstep4
    |>.stepL (.emplace 2 (.moveExt 9)) rfl pstep5
    |>.stepL (.emplace 0 (.copyExt 3)) rfl pstep6
    |>.stepR (.emplace 0 (.emplaced 5)) rfl pstep7
    |>.stepR (.emplace 6 (.emplaced 6)) rfl pstep8
    |>.stepR (.emplace 0 (.emplaced 4)) rfl pstep9

def sc1 : Coll Nat :=
  ⟨.split, ⟨[⟨4, 10, ⟨.split ⟨5, 0, 0, ⟨2, 1, []⟩, ⟨6, 1, [⟨2, 0⟩]⟩⟩, ⟨6, 0⟩⟩⟩], 1, 1, 0, [(10, ⟨some 4, 1⟩)]⟩⟩
theorem sstep1 : COp.run E0 (.registerTypes [10]) (Coll.empty' .split 0) ⟨1, 0⟩ = .ok () sc1 ⟨9, 8⟩ := rfl
def sc2 : Coll Nat :=
  ⟨.split, ⟨[⟨12, 0, ⟨.split ⟨0, 0, 0, ⟨10, 1, [1]⟩, ⟨17, 2, [⟨10, 0⟩, ⟨10, 1⟩]⟩⟩, ⟨17, 1⟩⟩⟩, ⟨4, 10, ⟨.split ⟨5, 0, 0, ⟨2, 1, []⟩, ⟨6, 1, [⟨2, 0⟩]⟩⟩,
    ⟨6, 0⟩⟩⟩], 2, 2, 0, [(10, ⟨some 4, 2⟩), (0, ⟨some 12, 2⟩)]⟩⟩
theorem sstep2 : COp.run E0 (.emplace 0 (.emplaced 1)) sc1 ⟨9, 8⟩ = .ok () sc2 ⟨18, 18⟩ := rfl
def sc3 : Coll Nat :=
  ⟨.split, ⟨[⟨12, 0, ⟨.split ⟨0, 0, 0, ⟨20, 2, [1, 2]⟩, ⟨19, 3, [⟨20, 0⟩, ⟨20, 1⟩, ⟨20, 2⟩]⟩⟩, ⟨19, 2⟩⟩⟩, ⟨4, 10, ⟨.split ⟨5, 0, 0, ⟨2, 1, []⟩, ⟨6, 1,
    [⟨2, 0⟩]⟩⟩, ⟨6, 0⟩⟩⟩], 2, 2, 0, [(10, ⟨some 4, 2⟩), (0, ⟨some 12, 2⟩), (1, ⟨some 12, 2⟩)]⟩⟩
theorem sstep3 : COp.run E0 (.emplace 1 (.copyExt 2)) sc2 ⟨18, 18⟩ = .ok () sc3 ⟨21, 21⟩ := rfl
def sc4 : Coll Nat :=
  ⟨.split, ⟨[⟨24, 4, ⟨.split ⟨2, 0, 0, ⟨22, 1, [7]⟩, ⟨29, 2, [⟨22, 0⟩, ⟨22, 1⟩]⟩⟩, ⟨29, 1⟩⟩⟩, ⟨4, 10, ⟨.split ⟨5, 0, 0, ⟨2, 1, []⟩, ⟨6, 1, [⟨2, 0⟩]⟩⟩,
    ⟨6, 0⟩⟩⟩, ⟨12, 0, ⟨.split ⟨0, 0, 0, ⟨20, 2, [1, 2]⟩, ⟨19, 3, [⟨20, 0⟩, ⟨20, 1⟩, ⟨20, 2⟩]⟩⟩, ⟨19, 2⟩⟩⟩], 3, 3, 0, [(10, ⟨some 4, 3⟩), (0, ⟨some 12,
    3⟩), (1, ⟨some 12, 3⟩), (4, ⟨some 24, 3⟩)]⟩⟩
theorem sstep4 : COp.run E0 (.emplace 4 (.emplaced 7)) sc3 ⟨21, 21⟩ = .ok () sc4 ⟨30, 31⟩ := rfl
def sc5 : Coll Nat :=
  ⟨.split, ⟨[⟨33, 2, ⟨.split ⟨1, 0, 0, ⟨31, 1, [9]⟩, ⟨38, 2, [⟨31, 0⟩, ⟨31, 1⟩]⟩⟩, ⟨38, 1⟩⟩⟩, ⟨12, 0, ⟨.split ⟨0, 0, 0, ⟨20, 2, [1, 2]⟩, ⟨19, 3, [⟨20,
    0⟩, ⟨20, 1⟩, ⟨20, 2⟩]⟩⟩, ⟨19, 2⟩⟩⟩, ⟨4, 10, ⟨.split ⟨5, 0, 0, ⟨2, 1, []⟩, ⟨6, 1, [⟨2, 0⟩]⟩⟩, ⟨6, 0⟩⟩⟩, ⟨24, 4, ⟨.split ⟨2, 0, 0, ⟨22, 1, [7]⟩, ⟨29,
    2, [⟨22, 0⟩, ⟨22, 1⟩]⟩⟩, ⟨29, 1⟩⟩⟩], 4, 4, 0, [(10, ⟨some 4, 4⟩), (0, ⟨some 12, 4⟩), (1, ⟨some 12, 4⟩), (4, ⟨some 24, 4⟩), (2, ⟨some 33, 4⟩)]⟩⟩
theorem sstep5 : COp.run E0 (.emplace 2 (.moveExt 9)) sc4 ⟨30, 31⟩ = .ok () sc5 ⟨39, 40⟩ := rfl
def sc6 : Coll Nat :=
  ⟨.split, ⟨[⟨33, 2, ⟨.split ⟨1, 0, 0, ⟨31, 1, [9]⟩, ⟨38, 2, [⟨31, 0⟩, ⟨31, 1⟩]⟩⟩, ⟨38, 1⟩⟩⟩, ⟨12, 0, ⟨.split ⟨0, 0, 0, ⟨40, 3, [1, 2, 3]⟩, ⟨39, 4,
    [⟨40, 0⟩, ⟨40, 1⟩, ⟨40, 2⟩, ⟨40, 3⟩]⟩⟩, ⟨39, 3⟩⟩⟩, ⟨4, 10, ⟨.split ⟨5, 0, 0, ⟨2, 1, []⟩, ⟨6, 1, [⟨2, 0⟩]⟩⟩, ⟨6, 0⟩⟩⟩, ⟨24, 4, ⟨.split ⟨2, 0, 0, ⟨22,
    1, [7]⟩, ⟨29, 2, [⟨22, 0⟩, ⟨22, 1⟩]⟩⟩, ⟨29, 1⟩⟩⟩], 4, 4, 0, [(10, ⟨some 4, 4⟩), (0, ⟨some 12, 4⟩), (1, ⟨some 12, 4⟩), (4, ⟨some 24, 4⟩), (2, ⟨some
    33, 4⟩)]⟩⟩
theorem sstep6 : COp.run E0 (.emplace 0 (.copyExt 3)) sc5 ⟨39, 40⟩ = .ok () sc6 ⟨41, 42⟩ := rfl
def sd1 : Coll Nat :=
  ⟨.split, ⟨[⟨44, 0, ⟨.split ⟨0, 1, 1, ⟨42, 1, [5]⟩, ⟨49, 2, [⟨42, 0⟩, ⟨42, 1⟩]⟩⟩, ⟨49, 1⟩⟩⟩], 1, 1, 1, [(0, ⟨some 44, 1⟩)]⟩⟩
theorem sstep7 : COp.run E0 (.emplace 0 (.emplaced 5)) (Coll.empty' .split 1) ⟨41, 42⟩ = .ok () sd1 ⟨50, 52⟩ := rfl
def sd2 : Coll Nat :=
  ⟨.split, ⟨[⟨53, 6, ⟨.split ⟨3, 1, 1, ⟨51, 1, [6]⟩, ⟨58, 2, [⟨51, 0⟩, ⟨51, 1⟩]⟩⟩, ⟨58, 1⟩⟩⟩, ⟨44, 0, ⟨.split ⟨0, 1, 1, ⟨42, 1, [5]⟩, ⟨49, 2, [⟨42, 0⟩,
    ⟨42, 1⟩]⟩⟩, ⟨49, 1⟩⟩⟩], 2, 2, 1, [(0, ⟨some 44, 2⟩), (6, ⟨some 53, 2⟩)]⟩⟩
theorem sstep8 : COp.run E0 (.emplace 6 (.emplaced 6)) sd1 ⟨50, 52⟩ = .ok () sd2 ⟨59, 62⟩ := rfl
def sd3 : Coll Nat :=
  ⟨.split, ⟨[⟨53, 6, ⟨.split ⟨3, 1, 1, ⟨51, 1, [6]⟩, ⟨58, 2, [⟨51, 0⟩, ⟨51, 1⟩]⟩⟩, ⟨58, 1⟩⟩⟩, ⟨44, 0, ⟨.split ⟨0, 1, 1, ⟨60, 2, [5, 4]⟩, ⟨59, 3, [⟨60,
    0⟩, ⟨60, 1⟩, ⟨60, 2⟩]⟩⟩, ⟨59, 2⟩⟩⟩], 2, 2, 1, [(0, ⟨some 44, 2⟩), (6, ⟨some 53, 2⟩)]⟩⟩
theorem sstep9 : COp.run E0 (.emplace 0 (.emplaced 4)) sd2 ⟨59, 62⟩ = .ok () sd3 ⟨61, 65⟩ := rfl
theorem sreach : Coll.Reachable2 E0 .split sc6 sd3 ⟨61, 65⟩ :=
  open Coll in
  Reachable2.start sub (sub_ty _) 0 1
    |>.stepL (.registerTypes [10]) rfl sstep1
    |>.stepL (.emplace 0 (.emplaced 1)) rfl sstep2
    |>.stepL (.emplace 1 (.copyExt 2)) rfl sstep3
    |>.stepL (.emplace 4 (.emplaced 7)) rfl sstep4
    |>.stepL (.emplace 2 (.moveExt 9)) rfl sstep5
    |>.stepL (.emplace 0 (.copyExt 3)) rfl sstep6
    |>.stepR (.emplace 0 (.emplaced 5)) rfl sstep7
    |>.stepR (.emplace 6 (.emplaced 6)) rfl sstep8
    |>.stepR (.emplace 0 (.emplaced 4)) rfl sstep9


/-- The collections, by layout. -/
def c0 : Kind → Coll Nat
  | .packed => pc6
  | .split => sc6
def c1 : Kind → Coll Nat
  | .packed => pd3
  | .split => sd3
def w0 : Kind → World
  | .packed => ⟨40, 44⟩
  | .split => ⟨61, 65⟩

theorem reach01 (k : Kind) : Coll.Reachable2 E0 k (c0 k) (c1 k) (w0 k) := by
  cases k
  · exact preach
  · exact sreach
theorem reach0 (k : Kind) : (c0 k).Reachable E0 k (w0 k) := (reach01 k).left
theorem reach1 (k : Kind) : (c1 k).Reachable E0 k (w0 k) := (reach01 k).right

/-- What they hold. -/
theorem abs0 (k : Kind) : (c0 k).abs = [(1, [9]), (0, [1, 2, 3]), (5, []), (2, [7])] := by cases k <;> rfl
theorem abs1 (k : Kind) : (c1 k).abs = [(3, [6]), (0, [5, 4])] := by cases k <;> rfl

/-! A collection with spare capacity: two elements of type 0 and room for four. -/

def prc1 : Coll Nat :=
  ⟨.packed, ⟨[⟨2, 0, ⟨.packed ⟨0, 0, 0, ⟨6, 1, [5]⟩⟩, ⟨6, 1⟩⟩⟩], 1, 1, 0, [(0, ⟨some 2, 1⟩)]⟩⟩
theorem prstep1 : COp.run E0 (.emplace 0 (.emplaced 5)) (Coll.empty' .packed 0) ⟨1, 0⟩ = .ok () prc1 ⟨7, 7⟩ := rfl
def prc2 : Coll Nat :=
  ⟨.packed, ⟨[⟨2, 0, ⟨.packed ⟨0, 0, 0, ⟨8, 2, [5, 6]⟩⟩, ⟨8, 2⟩⟩⟩], 1, 1, 0, [(0, ⟨some 2, 1⟩), (1, ⟨some 2, 1⟩)]⟩⟩
theorem prstep2 : COp.run E0 (.emplace 1 (.copyExt 6)) prc1 ⟨7, 7⟩ = .ok () prc2 ⟨9, 9⟩ := rfl
def prc3 : Coll Nat :=
  ⟨.packed, ⟨[⟨2, 0, ⟨.packed ⟨0, 0, 0, ⟨9, 4, [5, 6]⟩⟩, ⟨9, 2⟩⟩⟩], 1, 1, 0, [(0, ⟨some 2, 1⟩), (1, ⟨some 2, 1⟩)]⟩⟩
theorem prstep3 : COp.run E0 (.reserveInfo 0 4) prc2 ⟨9, 9⟩ = .ok () prc3 ⟨10, 10⟩ := rfl
theorem prreach : Coll.Reachable2 E0 .packed prc3 (Coll.empty' .packed 1) ⟨10, 10⟩ :=
  open Coll in
  Reachable2.start sub (sub_ty _) 0 1
    |>.stepL (.emplace 0 (.emplaced 5)) rfl prstep1
    |>.stepL (.emplace 1 (.copyExt 6)) rfl prstep2
    |>.stepL (.reserveInfo 0 4) rfl prstep3

def src1 : Coll Nat :=
  ⟨.split, ⟨[⟨4, 0, ⟨.split ⟨0, 0, 0, ⟨2, 1, [5]⟩, ⟨9, 2, [⟨2, 0⟩, ⟨2, 1⟩]⟩⟩, ⟨9, 1⟩⟩⟩], 1, 1, 0, [(0, ⟨some 4, 1⟩)]⟩⟩
theorem srstep1 : COp.run E0 (.emplace 0 (.emplaced 5)) (Coll.empty' .split 0) ⟨1, 0⟩ = .ok () src1 ⟨10, 10⟩ := rfl
def src2 : Coll Nat :=
  ⟨.split, ⟨[⟨4, 0, ⟨.split ⟨0, 0, 0, ⟨12, 2, [5, 6]⟩, ⟨11, 3, [⟨12, 0⟩, ⟨12, 1⟩, ⟨12, 2⟩]⟩⟩, ⟨11, 2⟩⟩⟩], 1, 1, 0, [(0, ⟨some 4, 1⟩), (1, ⟨some 4,
    1⟩)]⟩⟩
theorem srstep2 : COp.run E0 (.emplace 1 (.copyExt 6)) src1 ⟨10, 10⟩ = .ok () src2 ⟨13, 13⟩ := rfl
def src3 : Coll Nat :=
  ⟨.split, ⟨[⟨4, 0, ⟨.split ⟨0, 0, 0, ⟨14, 4, [5, 6]⟩, ⟨13, 5, [⟨14, 0⟩, ⟨14, 1⟩, ⟨14, 2⟩]⟩⟩, ⟨13, 2⟩⟩⟩], 1, 1, 0, [(0, ⟨some 4, 1⟩), (1, ⟨some 4,
    1⟩)]⟩⟩
theorem srstep3 : COp.run E0 (.reserveInfo 0 4) src2 ⟨13, 13⟩ = .ok () src3 ⟨15, 15⟩ := rfl
theorem srreach : Coll.Reachable2 E0 .split src3 (Coll.empty' .split 1) ⟨15, 15⟩ :=
  open Coll in
  Reachable2.start sub (sub_ty _) 0 1
    |>.stepL (.emplace 0 (.emplaced 5)) rfl srstep1
    |>.stepL (.emplace 1 (.copyExt 6)) rfl srstep2
    |>.stepL (.reserveInfo 0 4) rfl srstep3

/-- Two elements of type 0 and room for four. -/
def c2 : Kind → Coll Nat
  | .packed => prc3
  | .split => src3

def w2 : Kind → World
  | .packed => ⟨10, 10⟩
  | .split => ⟨15, 15⟩

theorem reach2 (k : Kind) : (c2 k).Reachable E0 k (w2 k) := by
  cases k
  · exact prreach.left
  · exact srreach.left

theorem abs2 (k : Kind) : (c2 k).abs = [(0, [5, 6])] := by cases k <;> rfl

theorem room2 (k : Kind) : ∀ x ∈ (c2 k).map.nodes, x.seg.size = 2 ∧ x.seg.capacity = 4 := by cases k <;> decide

/-! Two more elements of type 0, and another segment. -/

def prc4 : Coll Nat :=
  ⟨.packed, ⟨[⟨2, 0, ⟨.packed ⟨0, 0, 0, ⟨9, 4, [5, 6, 7]⟩⟩, ⟨9, 3⟩⟩⟩], 1, 1, 0, [(0, ⟨some 2, 1⟩), (1, ⟨some 2, 1⟩)]⟩⟩
theorem prstep4 : COp.run E0 (.emplace 0 (.emplaced 7)) prc3 ⟨10, 10⟩ = .ok () prc4 ⟨10, 11⟩ := rfl
def prc5 : Coll Nat :=
  ⟨.packed, ⟨[⟨11, 4, ⟨.packed ⟨2, 0, 0, ⟨0, 0, []⟩⟩, ⟨0, 0⟩⟩⟩, ⟨2, 0, ⟨.packed ⟨0, 0, 0, ⟨9, 4, [5, 6, 7]⟩⟩, ⟨9, 3⟩⟩⟩], 2, 2, 0, [(0, ⟨some 2, 2⟩), (1,
    ⟨some 2, 2⟩), (4, ⟨some 11, 2⟩)]⟩⟩
theorem prstep5 : COp.run E0 (.registerTypes [4]) prc4 ⟨10, 11⟩ = .ok () prc5 ⟨15, 16⟩ := rfl
def prc6 : Coll Nat :=
  ⟨.packed, ⟨[⟨11, 4, ⟨.packed ⟨2, 0, 0, ⟨0, 0, []⟩⟩, ⟨0, 0⟩⟩⟩, ⟨2, 0, ⟨.packed ⟨0, 0, 0, ⟨9, 4, [5, 6, 7, 8]⟩⟩, ⟨9, 4⟩⟩⟩], 2, 2, 0, [(0, ⟨some 2, 2⟩),
    (1, ⟨some 2, 2⟩), (4, ⟨some 11, 2⟩)]⟩⟩
theorem prstep6 : COp.run E0 (.emplace 0 (.emplaced 8)) prc5 ⟨15, 16⟩ = .ok () prc6 ⟨15, 17⟩ := rfl

def src4 : Coll Nat :=
  ⟨.split, ⟨[⟨4, 0, ⟨.split ⟨0, 0, 0, ⟨14, 4, [5, 6, 7]⟩, ⟨13, 5, [⟨14, 0⟩, ⟨14, 1⟩, ⟨14, 2⟩, ⟨14, 3⟩]⟩⟩, ⟨13, 3⟩⟩⟩], 1, 1, 0, [(0, ⟨some 4, 1⟩), (1,
    ⟨some 4, 1⟩)]⟩⟩
theorem srstep4 : COp.run E0 (.emplace 0 (.emplaced 7)) src3 ⟨15, 15⟩ = .ok () src4 ⟨15, 16⟩ := rfl
def src5 : Coll Nat :=
  ⟨.split, ⟨[⟨18, 4, ⟨.split ⟨2, 0, 0, ⟨16, 1, []⟩, ⟨20, 1, [⟨16, 0⟩]⟩⟩, ⟨20, 0⟩⟩⟩, ⟨4, 0, ⟨.split ⟨0, 0, 0, ⟨14, 4, [5, 6, 7]⟩, ⟨13, 5, [⟨14, 0⟩, ⟨14,
    1⟩, ⟨14, 2⟩, ⟨14, 3⟩]⟩⟩, ⟨13, 3⟩⟩⟩], 2, 2, 0, [(0, ⟨some 4, 2⟩), (1, ⟨some 4, 2⟩), (4, ⟨some 18, 2⟩)]⟩⟩
theorem srstep5 : COp.run E0 (.registerTypes [4]) src4 ⟨15, 16⟩ = .ok () src5 ⟨23, 24⟩ := rfl
def src6 : Coll Nat :=
  ⟨.split, ⟨[⟨18, 4, ⟨.split ⟨2, 0, 0, ⟨16, 1, []⟩, ⟨20, 1, [⟨16, 0⟩]⟩⟩, ⟨20, 0⟩⟩⟩, ⟨4, 0, ⟨.split ⟨0, 0, 0, ⟨14, 4, [5, 6, 7, 8]⟩, ⟨13, 5, [⟨14, 0⟩,
    ⟨14, 1⟩, ⟨14, 2⟩, ⟨14, 3⟩, ⟨14, 4⟩]⟩⟩, ⟨13, 4⟩⟩⟩], 2, 2, 0, [(0, ⟨some 4, 2⟩), (1, ⟨some 4, 2⟩), (4, ⟨some 18, 2⟩)]⟩⟩
theorem srstep6 : COp.run E0 (.emplace 0 (.emplaced 8)) src5 ⟨23, 24⟩ = .ok () src6 ⟨23, 25⟩ := rfl

end PolyColl.Sample
