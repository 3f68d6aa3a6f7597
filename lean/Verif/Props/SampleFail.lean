import Verif.Props.Sample
/-!
# Programs that end badly

Each program is given by its intermediate states; the last operation throws or is undefined.
-/

namespace PolyColl.Sample
open PolyColl Prog

/-! A full segment of an `any_collection`; a copy of its only element is inserted. -/

def w13c1 : Coll Nat :=
  ⟨.split, ⟨[⟨4, 0, ⟨.split ⟨0, 0, 0, ⟨2, 1, [5]⟩, ⟨9, 2, [⟨2, 0⟩, ⟨2, 1⟩]⟩⟩, ⟨9, 1⟩⟩⟩], 1, 1, 0, [(0, ⟨some 4, 1⟩)]⟩⟩
theorem w13step1 : COp.run (E0) (.emplace 0 (.emplaced 5)) (Coll.empty' .split 0) ⟨1, 0⟩ = .ok () w13c1 ⟨10, 10⟩ := rfl
theorem w13reach : Coll.Reachable2 (E0) .split w13c1 (Coll.empty' .split 1) ⟨10, 10⟩ :=
  open Coll in
  Reachable2.start sub (sub_ty _) 0 1
    |>.stepL (.emplace 0 (.emplaced 5)) rfl w13step1
theorem w13ub : COp.run (E0) (.insert ⟨0, 0, true, false, .copyAlias ⟨2, 0⟩⟩) w13c1 ⟨10, 10⟩ = .ub := rfl

/-! A full segment of an `any_collection`; a copy of a non-copyable object is inserted. -/

def w16c1 : Coll Nat :=
  ⟨.split, ⟨[⟨4, 2, ⟨.split ⟨1, 0, 0, ⟨2, 1, [5]⟩, ⟨9, 2, [⟨2, 0⟩, ⟨2, 1⟩]⟩⟩, ⟨9, 1⟩⟩⟩], 1, 1, 0, [(2, ⟨some 4, 1⟩)]⟩⟩
theorem w16step1 : COp.run (E0) (.emplace 2 (.emplaced 5)) (Coll.empty' .split 0) ⟨1, 0⟩ = .ok () w16c1 ⟨10, 10⟩ := rfl
def w16c2 : Coll Nat :=
  ⟨.split, ⟨[⟨4, 2, ⟨.split ⟨1, 0, 0, ⟨11, 2, [5, 6]⟩, ⟨10, 3, [⟨11, 0⟩, ⟨11, 1⟩, ⟨11, 2⟩]⟩⟩, ⟨10, 2⟩⟩⟩], 1, 1, 0, [(2, ⟨some 4, 1⟩)]⟩⟩
theorem w16step2 : COp.run (E0) (.emplace 2 (.emplaced 6)) w16c1 ⟨10, 10⟩ = .ok () w16c2 ⟨12, 13⟩ := rfl
theorem w16reach : Coll.Reachable2 (E0) .split w16c2 (Coll.empty' .split 1) ⟨12, 13⟩ :=
  open Coll in
  Reachable2.start sub (sub_ty _) 0 1
    |>.stepL (.emplace 2 (.emplaced 5)) rfl w16step1
    |>.stepL (.emplace 2 (.emplaced 6)) rfl w16step2
def w16x : Coll Nat :=
  ⟨.split, ⟨[⟨4, 2, ⟨.split ⟨1, 0, 0, ⟨13, 3, [5, 6]⟩, ⟨12, 4, [⟨13, 0⟩, ⟨13, 1⟩, ⟨13, 2⟩]⟩⟩, ⟨10, 2⟩⟩⟩], 1, 1, 0, [(2, ⟨some 4, 1⟩)]⟩⟩
theorem w16exc : COp.run (E0) (.insert ⟨2, 2, true, false, .copyExt 7⟩) w16c2 ⟨12, 13⟩ = .exc (.notCopyConstructible 1) w16x ⟨14, 15⟩ := rfl

/-! The same segment; the constructor of the new element throws. -/

def w16uc1 : Coll Nat :=
  ⟨.split, ⟨[⟨4, 0, ⟨.split ⟨0, 0, 0, ⟨2, 1, [5]⟩, ⟨9, 2, [⟨2, 0⟩, ⟨2, 1⟩]⟩⟩, ⟨9, 1⟩⟩⟩], 1, 1, 0, [(0, ⟨some 4, 1⟩)]⟩⟩
theorem w16ustep1 : COp.run (env fun t => t == 15) (.emplace 0 (.emplaced 5)) (Coll.empty' .split 0) ⟨1, 0⟩ = .ok () w16uc1 ⟨10, 10⟩ := rfl
def w16uc2 : Coll Nat :=
  ⟨.split, ⟨[⟨4, 0, ⟨.split ⟨0, 0, 0, ⟨11, 2, [5, 6]⟩, ⟨10, 3, [⟨11, 0⟩, ⟨11, 1⟩, ⟨11, 2⟩]⟩⟩, ⟨10, 2⟩⟩⟩], 1, 1, 0, [(0, ⟨some 4, 1⟩)]⟩⟩
theorem w16ustep2 : COp.run (env fun t => t == 15) (.emplace 0 (.emplaced 6)) w16uc1 ⟨10, 10⟩ = .ok () w16uc2 ⟨12, 13⟩ := rfl
theorem w16ureach : Coll.Reachable2 (env fun t => t == 15) .split w16uc2 (Coll.empty' .split 1) ⟨12, 13⟩ :=
  open Coll in
  Reachable2.start sub (sub_ty _) 0 1
    |>.stepL (.emplace 0 (.emplaced 5)) rfl w16ustep1
    |>.stepL (.emplace 0 (.emplaced 6)) rfl w16ustep2
def w16ux : Coll Nat :=
  ⟨.split, ⟨[⟨4, 0, ⟨.split ⟨0, 0, 0, ⟨13, 3, [5, 6]⟩, ⟨12, 4, [⟨13, 0⟩, ⟨13, 1⟩, ⟨13, 2⟩]⟩⟩, ⟨10, 2⟩⟩⟩], 1, 1, 0, [(0, ⟨some 4, 1⟩)]⟩⟩
theorem w16uexc : COp.run (env fun t => t == 15) (.emplace 0 (.emplaced 7)) w16uc2 ⟨12, 13⟩ = .exc (.user) w16ux ⟨14, 16⟩ := rfl

/-! `reserve` on an `any_collection`; the second allocation fails. -/

def w16rc1 : Coll Nat :=
  ⟨.split, ⟨[⟨4, 0, ⟨.split ⟨0, 0, 0, ⟨2, 1, [5]⟩, ⟨9, 2, [⟨2, 0⟩, ⟨2, 1⟩]⟩⟩, ⟨9, 1⟩⟩⟩], 1, 1, 0, [(0, ⟨some 4, 1⟩)]⟩⟩
theorem w16rstep1 : COp.run (env fun t => t == 11) (.emplace 0 (.emplaced 5)) (Coll.empty' .split 0) ⟨1, 0⟩ = .ok () w16rc1 ⟨10, 10⟩ := rfl
theorem w16rreach : Coll.Reachable2 (env fun t => t == 11) .split w16rc1 (Coll.empty' .split 1) ⟨10, 10⟩ :=
  open Coll in
  Reachable2.start sub (sub_ty _) 0 1
    |>.stepL (.emplace 0 (.emplaced 5)) rfl w16rstep1
def w16rx : Coll Nat :=
  ⟨.split, ⟨[⟨4, 0, ⟨.split ⟨0, 0, 0, ⟨2, 1, [5]⟩, ⟨10, 11, [⟨2, 0⟩, ⟨2, 1⟩]⟩⟩, ⟨9, 1⟩⟩⟩], 1, 1, 0, [(0, ⟨some 4, 1⟩)]⟩⟩
theorem w16rexc : COp.run (env fun t => t == 11) (.reserveT 0 10) w16rc1 ⟨10, 10⟩ = .exc (.badAlloc) w16rx ⟨11, 12⟩ := rfl

/-! Erasure of the first of three elements of an `any_collection`; move assignment throws. -/

def w17c1 : Coll Nat :=
  ⟨.split, ⟨[⟨4, 4, ⟨.split ⟨2, 0, 0, ⟨10, 4, []⟩, ⟨9, 5, [⟨10, 0⟩]⟩⟩, ⟨9, 0⟩⟩⟩], 1, 1, 0, [(4, ⟨some 4, 1⟩)]⟩⟩
theorem w17step1 : COp.run (env fun t => t == 13) (.reserveT 4 4) (Coll.empty' .split 0) ⟨1, 0⟩ = .ok () w17c1 ⟨11, 10⟩ := rfl
def w17c2 : Coll Nat :=
  ⟨.split, ⟨[⟨4, 4, ⟨.split ⟨2, 0, 0, ⟨10, 4, [5]⟩, ⟨9, 5, [⟨10, 0⟩, ⟨10, 1⟩]⟩⟩, ⟨9, 1⟩⟩⟩], 1, 1, 0, [(4, ⟨some 4, 1⟩)]⟩⟩
theorem w17step2 : COp.run (env fun t => t == 13) (.emplace 4 (.emplaced 5)) w17c1 ⟨11, 10⟩ = .ok () w17c2 ⟨11, 11⟩ := rfl
def w17c3 : Coll Nat :=
  ⟨.split, ⟨[⟨4, 4, ⟨.split ⟨2, 0, 0, ⟨10, 4, [5, 6]⟩, ⟨9, 5, [⟨10, 0⟩, ⟨10, 1⟩, ⟨10, 2⟩]⟩⟩, ⟨9, 2⟩⟩⟩], 1, 1, 0, [(4, ⟨some 4, 1⟩)]⟩⟩
theorem w17step3 : COp.run (env fun t => t == 13) (.emplace 4 (.emplaced 6)) w17c2 ⟨11, 11⟩ = .ok () w17c3 ⟨11, 12⟩ := rfl
def w17c4 : Coll Nat :=
  ⟨.split, ⟨[⟨4, 4, ⟨.split ⟨2, 0, 0, ⟨10, 4, [5, 6, 7]⟩, ⟨9, 5, [⟨10, 0⟩, ⟨10, 1⟩, ⟨10, 2⟩, ⟨10, 3⟩]⟩⟩, ⟨9, 3⟩⟩⟩], 1, 1, 0, [(4, ⟨some 4, 1⟩)]⟩⟩
theorem w17step4 : COp.run (env fun t => t == 13) (.emplace 4 (.emplaced 7)) w17c3 ⟨11, 12⟩ = .ok () w17c4 ⟨11, 13⟩ := rfl
theorem w17reach : Coll.Reachable2 (env fun t => t == 13) .split w17c4 (Coll.empty' .split 1) ⟨11, 13⟩ :=
  open Coll in
  Reachable2.start sub (sub_ty _) 0 1
    |>.stepL (.reserveT 4 4) rfl w17step1
    |>.stepL (.emplace 4 (.emplaced 5)) rfl w17step2
    |>.stepL (.emplace 4 (.emplaced 6)) rfl w17step3
    |>.stepL (.emplace 4 (.emplaced 7)) rfl w17step4
def w17x : Coll Nat :=
  ⟨.split, ⟨[⟨4, 4, ⟨.split ⟨2, 0, 0, ⟨10, 4, [100, 101, 102]⟩, ⟨9, 5, [⟨10, 0⟩, ⟨10, 1⟩, ⟨10, 2⟩]⟩⟩, ⟨9, 3⟩⟩⟩], 1, 1, 0, [(4, ⟨some 4, 1⟩)]⟩⟩
theorem w17exc : COp.run (env fun t => t == 13) (.erase ⟨⟨some 4, 1⟩, ⟨none, 1⟩, ⟨9, 0⟩⟩) w17c4 ⟨11, 13⟩ = .exc (.user) w17x ⟨11, 14⟩ := rfl

/-! The same in a full segment. -/

def w17d4 : Coll Nat :=
  ⟨.split, ⟨[⟨4, 4, ⟨.split ⟨2, 0, 0, ⟨10, 4, [5, 6, 7, 8]⟩, ⟨9, 5, [⟨10, 0⟩, ⟨10, 1⟩, ⟨10, 2⟩, ⟨10, 3⟩, ⟨10, 4⟩]⟩⟩, ⟨9, 4⟩⟩⟩], 1, 1, 0, [(4, ⟨some 4, 1⟩)]⟩⟩
theorem w17dreach : Coll.Reachable2 (env fun t => t == 14) .split w17d4 (Coll.empty' .split 1) ⟨11, 14⟩ :=
  open Coll in
  Reachable2.start sub (sub_ty _) 0 1
    |>.stepL (.reserveT 4 4) rfl (c' := w17c1) (w' := ⟨11, 10⟩) rfl
    |>.stepL (.emplace 4 (.emplaced 5)) rfl (c' := w17c2) (w' := ⟨11, 11⟩) rfl
    |>.stepL (.emplace 4 (.emplaced 6)) rfl (c' := w17c3) (w' := ⟨11, 12⟩) rfl
    |>.stepL (.emplace 4 (.emplaced 7)) rfl (c' := w17c4) (w' := ⟨11, 13⟩) rfl
    |>.stepL (.emplace 4 (.emplaced 8)) rfl (c' := w17d4) (w' := ⟨11, 14⟩) rfl
def w17dx : Coll Nat :=
  ⟨.split, ⟨[⟨4, 4, ⟨.split ⟨2, 0, 0, ⟨10, 4, [100, 101, 102, 103]⟩, ⟨9, 5, [⟨10, 0⟩, ⟨10, 1⟩, ⟨10, 2⟩, ⟨10, 3⟩]⟩⟩, ⟨9, 4⟩⟩⟩], 1, 1, 0, [(4, ⟨some 4, 1⟩)]⟩⟩
theorem w17dexc : Coll.erase (env fun t => t == 14) ⟨⟨some 4, 1⟩, ⟨none, 1⟩, ⟨9, 0⟩⟩ w17d4 ⟨11, 14⟩ = .exc (.user) w17dx ⟨11, 15⟩ := rfl

theorem w17dok : (match Coll.emplace (env fun t => t == 14) 4 (.emplaced 9) w17dx ⟨11, 15⟩ with | .ok _ _ _ => true | _ => false) = true := by
  decide +kernel

/-! A second element of a type that is neither copyable nor nothrow-movable. -/

def w18c1 : Coll Nat :=
  ⟨.packed, ⟨[⟨2, 8, ⟨.packed ⟨4, 0, 0, ⟨6, 1, [5]⟩⟩, ⟨6, 1⟩⟩⟩], 1, 1, 0, [(8, ⟨some 2, 1⟩)]⟩⟩
theorem w18step1 : COp.run (E0) (.emplace 8 (.emplaced 5)) (Coll.empty' .packed 0) ⟨1, 0⟩ = .ok () w18c1 ⟨7, 7⟩ := rfl
theorem w18reach : Coll.Reachable2 (E0) .packed w18c1 (Coll.empty' .packed 1) ⟨7, 7⟩ :=
  open Coll in
  Reachable2.start sub (sub_ty _) 0 1
    |>.stepL (.emplace 8 (.emplaced 5)) rfl w18step1
def w18x : Coll Nat :=
  ⟨.packed, ⟨[⟨2, 8, ⟨.packed ⟨4, 0, 0, ⟨6, 1, [5]⟩⟩, ⟨6, 1⟩⟩⟩], 1, 1, 0, [(8, ⟨some 2, 1⟩)]⟩⟩
theorem w18exc : COp.run (E0) (.emplace 8 (.emplaced 6)) w18c1 ⟨7, 7⟩ = .exc (.notCopyConstructible 4) w18x ⟨8, 9⟩ := rfl

def w18sc1 : Coll Nat :=
  ⟨.split, ⟨[⟨4, 8, ⟨.split ⟨4, 0, 0, ⟨2, 1, [5]⟩, ⟨9, 2, [⟨2, 0⟩, ⟨2, 1⟩]⟩⟩, ⟨9, 1⟩⟩⟩], 1, 1, 0, [(8, ⟨some 4, 1⟩)]⟩⟩
theorem w18sstep1 : COp.run (E0) (.emplace 8 (.emplaced 5)) (Coll.empty' .split 0) ⟨1, 0⟩ = .ok () w18sc1 ⟨10, 10⟩ := rfl
theorem w18sreach : Coll.Reachable2 (E0) .split w18sc1 (Coll.empty' .split 1) ⟨10, 10⟩ :=
  open Coll in
  Reachable2.start sub (sub_ty _) 0 1
    |>.stepL (.emplace 8 (.emplaced 5)) rfl w18sstep1
def w18sx : Coll Nat :=
  ⟨.split, ⟨[⟨4, 8, ⟨.split ⟨4, 0, 0, ⟨2, 1, [5]⟩, ⟨10, 3, [⟨2, 0⟩, ⟨2, 1⟩]⟩⟩, ⟨9, 1⟩⟩⟩], 1, 1, 0, [(8, ⟨some 4, 1⟩)]⟩⟩
theorem w18sexc : COp.run (E0) (.emplace 8 (.emplaced 6)) w18sc1 ⟨10, 10⟩ = .exc (.notCopyConstructible 4) w18sx ⟨12, 12⟩ := rfl

/-! An insertion into an `any_collection` segment with spare capacity when `std::vector::reserve`
allocates more than it is asked for. -/

def w27c1 : Coll Nat :=
  ⟨.split, ⟨[⟨4, 0, ⟨.split ⟨0, 0, 0, ⟨2, 3, [5]⟩, ⟨9, 2, [⟨2, 0⟩, ⟨2, 1⟩]⟩⟩, ⟨9, 1⟩⟩⟩], 1, 1, 0, [(0, ⟨some 4, 1⟩)]⟩⟩
theorem w27step1 : COp.run (E2) (.emplace 0 (.emplaced 5)) (Coll.empty' .split 0) ⟨1, 0⟩ = .ok () w27c1 ⟨10, 10⟩ := rfl
theorem w27reach : Coll.Reachable2 (E2) .split w27c1 (Coll.empty' .split 1) ⟨10, 10⟩ :=
  open Coll in
  Reachable2.start sub sub_ty2 0 1
    |>.stepL (.emplace 0 (.emplaced 5)) rfl w27step1
def w27c2 : Coll Nat :=
  ⟨.split, ⟨[⟨4, 0, ⟨.split ⟨0, 0, 0, ⟨2, 3, [5, 6]⟩, ⟨10, 4, [⟨2, 0⟩, ⟨2, 1⟩, ⟨2, 2⟩]⟩⟩, ⟨10, 2⟩⟩⟩], 1, 1, 0, [(0, ⟨some 4, 1⟩)]⟩⟩
theorem w27step2 : COp.run (E2) (.emplace 0 (.emplaced 6)) w27c1 ⟨10, 10⟩ = .ok () w27c2 ⟨11, 12⟩ := rfl

/-! The creation of a segment in an `any_collection` with one element, when rehashing is harmless. -/

theorem w58step1 : COp.run (E1) (.emplace 0 (.emplaced 5)) (Coll.empty' .split 0) ⟨1, 0⟩ = .ok () w13c1 ⟨10, 10⟩ := rfl
theorem w58reach : Coll.Reachable2 (E1) .split w13c1 (Coll.empty' .split 1) ⟨10, 10⟩ :=
  open Coll in
  Reachable2.start sub sub_ty1 0 1
    |>.stepL (.emplace 0 (.emplaced 5)) rfl w58step1

/-! An `any_collection` with one element, room in its segment, and a hash map that is not rehashed any more. -/

def w11c1 : Coll Nat :=
  ⟨.split, ⟨[⟨4, 0, ⟨.split ⟨0, 0, 0, ⟨2, 1, [5]⟩, ⟨9, 2, [⟨2, 0⟩, ⟨2, 1⟩]⟩⟩, ⟨9, 1⟩⟩⟩], 8, 1, 0, [(0, ⟨some 4, 1⟩)]⟩⟩
theorem w11step1 : COp.run (E5) (.emplace 0 (.emplaced 5)) (Coll.empty' .split 0) ⟨1, 0⟩ = .ok () w11c1 ⟨10, 10⟩ := rfl
theorem w11reach : Coll.Reachable2 (E5) .split w11c1 (Coll.empty' .split 1) ⟨10, 10⟩ :=
  open Coll in
  Reachable2.start sub sub_ty5 0 1
    |>.stepL (.emplace 0 (.emplaced 5)) rfl w11step1

/-! `reserve` of more objects than a vector can have, fewer than a vector of index entries can. -/

def w30c1 : Coll Nat :=
  ⟨.split, ⟨[⟨4, 0, ⟨.split ⟨0, 0, 0, ⟨2, 1, [5]⟩, ⟨9, 2, [⟨2, 0⟩, ⟨2, 1⟩]⟩⟩, ⟨9, 1⟩⟩⟩], 1, 1, 0, [(0, ⟨some 4, 1⟩)]⟩⟩
theorem w30step1 : COp.run (E3) (.emplace 0 (.emplaced 5)) (Coll.empty' .split 0) ⟨1, 0⟩ = .ok () w30c1 ⟨10, 10⟩ := rfl
theorem w30reach : Coll.Reachable2 (E3) .split w30c1 (Coll.empty' .split 1) ⟨10, 10⟩ :=
  open Coll in
  Reachable2.start sub sub_ty3 0 1
    |>.stepL (.emplace 0 (.emplaced 5)) rfl w30step1
def w30x : Coll Nat :=
  ⟨.split, ⟨[⟨4, 0, ⟨.split ⟨0, 0, 0, ⟨2, 1, [5]⟩, ⟨10, 2001, [⟨2, 0⟩, ⟨2, 1⟩]⟩⟩, ⟨9, 1⟩⟩⟩], 1, 1, 0, [(0, ⟨some 4, 1⟩)]⟩⟩
theorem w30exc : COp.run (E3) (.reserveT 0 2000) w30c1 ⟨10, 10⟩ = .exc (.lengthError) w30x ⟨11, 11⟩ := rfl

/-! An `any_collection` with more elements than `max_size()`. -/

def wmxc1 : Coll Nat :=
  ⟨.split, ⟨[⟨4, 0, ⟨.split ⟨0, 0, 0, ⟨2, 1, [5]⟩, ⟨9, 2, [⟨2, 0⟩, ⟨2, 1⟩]⟩⟩, ⟨9, 1⟩⟩⟩], 1, 1, 0, [(0, ⟨some 4, 1⟩)]⟩⟩
theorem wmxstep1 : COp.run (E4) (.emplace 0 (.emplaced 5)) (Coll.empty' .split 0) ⟨1, 0⟩ = .ok () wmxc1 ⟨10, 10⟩ := rfl
def wmxc2 : Coll Nat :=
  ⟨.split, ⟨[⟨4, 0, ⟨.split ⟨0, 0, 0, ⟨11, 2, [5, 6]⟩, ⟨10, 3, [⟨11, 0⟩, ⟨11, 1⟩, ⟨11, 2⟩]⟩⟩, ⟨10, 2⟩⟩⟩], 1, 1, 0, [(0, ⟨some 4, 1⟩)]⟩⟩
theorem wmxstep2 : COp.run (E4) (.emplace 0 (.emplaced 6)) wmxc1 ⟨10, 10⟩ = .ok () wmxc2 ⟨12, 13⟩ := rfl
theorem wmxreach : Coll.Reachable2 (E4) .split wmxc2 (Coll.empty' .split 1) ⟨12, 13⟩ :=
  open Coll in
  Reachable2.start sub sub_ty4 0 1
    |>.stepL (.emplace 0 (.emplaced 5)) rfl wmxstep1
    |>.stepL (.emplace 0 (.emplaced 6)) rfl wmxstep2

end PolyColl.Sample
