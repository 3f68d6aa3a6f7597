import Verif.Props.Sample
/-! # Programs in which operations fail and the collection is used afterwards -/

namespace PolyColl.Sample
open PolyColl Prog

/-! A single-pass range is inserted into a full segment of a `base_collection`; the second
allocation fails. -/

def w59c1 : Coll Nat :=
  ⟨.packed, ⟨[⟨2, 0, ⟨.packed ⟨0, 0, 0, ⟨6, 1, [5]⟩⟩, ⟨6, 1⟩⟩⟩], 1, 1, 0, [(0, ⟨some 2, 1⟩)]⟩⟩
theorem w59step1 : COp.run (env fun t => t == 8) (.emplace 0 (.emplaced 5)) (Coll.empty' .packed 0) ⟨1, 0⟩ = .ok () w59c1 ⟨7, 7⟩ := rfl
theorem w59reach : Coll.Reachable2 (env fun t => t == 8) .packed w59c1 (Coll.empty' .packed 1) ⟨7, 7⟩ :=
  open Coll in
  Reachable2.start sub (sub_ty _) 0 1
    |>.stepL (.emplace 0 (.emplaced 5)) rfl w59step1
def w59x : Coll Nat :=
  ⟨.packed, ⟨[⟨2, 0, ⟨.packed ⟨0, 0, 0, ⟨7, 2, [5, 6]⟩⟩, ⟨6, 1⟩⟩⟩], 1, 1, 0, [(0, ⟨some 2, 1⟩)]⟩⟩
theorem w59exc : COp.run (env fun t => t == 8) (.insertRangeTerminal false 0 [.copyExt 6, .copyExt 7]) w59c1 ⟨7, 7⟩ = .exc (.badAlloc) w59x ⟨8, 9⟩ := rfl

/-! A range is inserted before the elements of a `base_collection`; copying the second of its
elements throws. -/

def w59hc1 : Coll Nat :=
  ⟨.packed, ⟨[⟨2, 4, ⟨.packed ⟨2, 0, 0, ⟨6, 4, []⟩⟩, ⟨6, 0⟩⟩⟩], 1, 1, 0, [(4, ⟨some 2, 1⟩)]⟩⟩
theorem w59hstep1 : COp.run (env fun t => t == 10) (.reserveT 4 4) (Coll.empty' .packed 0) ⟨1, 0⟩ = .ok () w59hc1 ⟨7, 6⟩ := rfl
def w59hc2 : Coll Nat :=
  ⟨.packed, ⟨[⟨2, 4, ⟨.packed ⟨2, 0, 0, ⟨6, 4, [5]⟩⟩, ⟨6, 1⟩⟩⟩], 1, 1, 0, [(4, ⟨some 2, 1⟩)]⟩⟩
theorem w59hstep2 : COp.run (env fun t => t == 10) (.emplace 4 (.emplaced 5)) w59hc1 ⟨7, 6⟩ = .ok () w59hc2 ⟨7, 7⟩ := rfl
def w59hc3 : Coll Nat :=
  ⟨.packed, ⟨[⟨2, 4, ⟨.packed ⟨2, 0, 0, ⟨6, 4, [5, 6]⟩⟩, ⟨6, 2⟩⟩⟩], 1, 1, 0, [(4, ⟨some 2, 1⟩)]⟩⟩
theorem w59hstep3 : COp.run (env fun t => t == 10) (.emplace 4 (.emplaced 6)) w59hc2 ⟨7, 7⟩ = .ok () w59hc3 ⟨7, 8⟩ := rfl
theorem w59hreach : Coll.Reachable2 (env fun t => t == 10) .packed w59hc3 (Coll.empty' .packed 1) ⟨7, 8⟩ :=
  open Coll in
  Reachable2.start sub (sub_ty _) 0 1
    |>.stepL (.reserveT 4 4) rfl w59hstep1
    |>.stepL (.emplace 4 (.emplaced 5)) rfl w59hstep2
    |>.stepL (.emplace 4 (.emplaced 6)) rfl w59hstep3
def w59hx : Coll Nat :=
  ⟨.packed, ⟨[⟨2, 4, ⟨.packed ⟨2, 0, 0, ⟨6, 4, [100, 101, 102, 103]⟩⟩, ⟨6, 2⟩⟩⟩], 1, 1, 0, [(4, ⟨some 2, 1⟩)]⟩⟩
theorem w59hexc : COp.run (env fun t => t == 10) (.insertHintRangeTerminal ⟨⟨some 2, 1⟩, ⟨none, 1⟩, ⟨6, 0⟩⟩ true 4 [.copyExt 7, .copyExt 8]) w59hc3 ⟨7, 8⟩ = .exc (.user) w59hx ⟨7, 11⟩ := rfl

/-! The first of two elements of an `any_collection` is erased three times; move assignment
throws each time. -/

def w60c1 : Coll Nat :=
  ⟨.split, ⟨[⟨4, 4, ⟨.split ⟨2, 0, 0, ⟨10, 4, []⟩, ⟨9, 5, [⟨10, 0⟩]⟩⟩, ⟨9, 0⟩⟩⟩], 1, 1, 0, [(4, ⟨some 4, 1⟩)]⟩⟩
theorem w60step1 : COp.run (env fun t => t > 11) (.reserveT 4 4) (Coll.empty' .split 0) ⟨1, 0⟩ = .ok () w60c1 ⟨11, 10⟩ := rfl
def w60c2 : Coll Nat :=
  ⟨.split, ⟨[⟨4, 4, ⟨.split ⟨2, 0, 0, ⟨10, 4, [5]⟩, ⟨9, 5, [⟨10, 0⟩, ⟨10, 1⟩]⟩⟩, ⟨9, 1⟩⟩⟩], 1, 1, 0, [(4, ⟨some 4, 1⟩)]⟩⟩
theorem w60step2 : COp.run (env fun t => t > 11) (.emplace 4 (.emplaced 5)) w60c1 ⟨11, 10⟩ = .ok () w60c2 ⟨11, 11⟩ := rfl
def w60c3 : Coll Nat :=
  ⟨.split, ⟨[⟨4, 4, ⟨.split ⟨2, 0, 0, ⟨10, 4, [5, 6]⟩, ⟨9, 5, [⟨10, 0⟩, ⟨10, 1⟩, ⟨10, 2⟩]⟩⟩, ⟨9, 2⟩⟩⟩], 1, 1, 0, [(4, ⟨some 4, 1⟩)]⟩⟩
theorem w60step3 : COp.run (env fun t => t > 11) (.emplace 4 (.emplaced 6)) w60c2 ⟨11, 11⟩ = .ok () w60c3 ⟨11, 12⟩ := rfl
theorem w60reach : Coll.Reachable2 (env fun t => t > 11) .split w60c3 (Coll.empty' .split 1) ⟨11, 12⟩ :=
  open Coll in
  Reachable2.start sub (sub_ty _) 0 1
    |>.stepL (.reserveT 4 4) rfl w60step1
    |>.stepL (.emplace 4 (.emplaced 5)) rfl w60step2
    |>.stepL (.emplace 4 (.emplaced 6)) rfl w60step3
def w60x1 : Coll Nat :=
  ⟨.split, ⟨[⟨4, 4, ⟨.split ⟨2, 0, 0, ⟨10, 4, [100, 101]⟩, ⟨9, 5, [⟨10, 0⟩, ⟨10, 1⟩]⟩⟩, ⟨9, 2⟩⟩⟩], 1, 1, 0, [(4, ⟨some 4, 1⟩)]⟩⟩
theorem w60exc1 : COp.run (env fun t => t > 11) (.eraseLocal ⟨⟨some 4, 1⟩, ⟨10, 0⟩⟩) w60c3 ⟨11, 12⟩ = .exc (.user) w60x1 ⟨11, 13⟩ := rfl
def w60x2 : Coll Nat :=
  ⟨.split, ⟨[⟨4, 4, ⟨.split ⟨2, 0, 0, ⟨10, 4, [100, 101]⟩, ⟨9, 5, [⟨10, 0⟩]⟩⟩, ⟨9, 2⟩⟩⟩], 1, 1, 0, [(4, ⟨some 4, 1⟩)]⟩⟩
theorem w60exc2 : COp.run (env fun t => t > 11) (.eraseLocal ⟨⟨some 4, 1⟩, ⟨10, 0⟩⟩) w60x1 ⟨11, 13⟩ = .exc (.user) w60x2 ⟨11, 14⟩ := rfl
def w60x3 : Coll Nat :=
  ⟨.split, ⟨[⟨4, 4, ⟨.split ⟨2, 0, 0, ⟨10, 4, [100, 101]⟩, ⟨9, 5, []⟩⟩, ⟨9, 2⟩⟩⟩], 1, 1, 0, [(4, ⟨some 4, 1⟩)]⟩⟩
theorem w60exc3 : COp.run (env fun t => t > 11) (.eraseLocal ⟨⟨some 4, 1⟩, ⟨10, 0⟩⟩) w60x2 ⟨11, 14⟩ = .exc (.user) w60x3 ⟨11, 15⟩ := rfl
theorem w60ub : COp.run (env fun t => t > 11) (.clearAll) w60x3 ⟨11, 15⟩ = .ub := rfl

/-! The same if nothing else fails. -/

abbrev E60 : Env Nat := env fun t => t == 12 || t == 13 || t == 14
theorem w60reach' : Coll.Reachable2 E60 .split w60c3 (Coll.empty' .split 1) ⟨11, 12⟩ :=
  open Coll in
  Reachable2.start sub (sub_ty _) 0 1
    |>.stepL (.reserveT 4 4) rfl (c' := w60c1) (w' := ⟨11, 10⟩) rfl
    |>.stepL (.emplace 4 (.emplaced 5)) rfl (c' := w60c2) (w' := ⟨11, 11⟩) rfl
    |>.stepL (.emplace 4 (.emplaced 6)) rfl (c' := w60c3) (w' := ⟨11, 12⟩) rfl
theorem w60exc1' : COp.run E60 (.eraseLocal ⟨⟨some 4, 1⟩, ⟨10, 0⟩⟩) w60c3 ⟨11, 12⟩ = .exc (.user) w60x1 ⟨11, 13⟩ := rfl
theorem w60exc2' : COp.run E60 (.eraseLocal ⟨⟨some 4, 1⟩, ⟨10, 0⟩⟩) w60x1 ⟨11, 13⟩ = .exc (.user) w60x2 ⟨11, 14⟩ := rfl
theorem w60exc3' : COp.run E60 (.eraseLocal ⟨⟨some 4, 1⟩, ⟨10, 0⟩⟩) w60x2 ⟨11, 14⟩ = .exc (.user) w60x3 ⟨11, 15⟩ := rfl
theorem w60ub' : Coll.clearAll (V := Nat) w60x3 ⟨11, 15⟩ = .ub := rfl

/-! An `any_collection` is moved to a new one with another allocator; this fails when the elements of both segments have been moved. -/

def w60mc1 : Coll Nat :=
  ⟨.split, ⟨[⟨4, 0, ⟨.split ⟨0, 0, 0, ⟨2, 1, [5]⟩, ⟨9, 2, [⟨2, 0⟩, ⟨2, 1⟩]⟩⟩, ⟨9, 1⟩⟩⟩], 1, 1, 0, [(0, ⟨some 4, 1⟩)]⟩⟩
theorem w60mstep1 : COp.run (env fun t => t == 27) (.emplace 0 (.emplaced 5)) (Coll.empty' .split 0) ⟨1, 0⟩ = .ok () w60mc1 ⟨10, 10⟩ := rfl
def w60mc2 : Coll Nat :=
  ⟨.split, ⟨[⟨13, 6, ⟨.split ⟨3, 0, 0, ⟨11, 1, [6]⟩, ⟨18, 2, [⟨11, 0⟩, ⟨11, 1⟩]⟩⟩, ⟨18, 1⟩⟩⟩,
    ⟨4, 0, ⟨.split ⟨0, 0, 0, ⟨2, 1, [5]⟩, ⟨9, 2, [⟨2, 0⟩, ⟨2, 1⟩]⟩⟩, ⟨9, 1⟩⟩⟩], 2, 2, 0, [(0, ⟨some 4, 2⟩), (6, ⟨some 13, 2⟩)]⟩⟩
theorem w60mstep2 : COp.run (env fun t => t == 27) (.emplace 6 (.emplaced 6)) w60mc1 ⟨10, 10⟩ = .ok () w60mc2 ⟨19, 20⟩ := rfl
theorem w60mreach : Coll.Reachable2 (env fun t => t == 27) .split w60mc2 (Coll.empty' .split 1) ⟨19, 20⟩ :=
  open Coll in
  Reachable2.start sub (sub_ty _) 0 1
    |>.stepL (.emplace 0 (.emplaced 5)) rfl w60mstep1
    |>.stepL (.emplace 6 (.emplaced 6)) rfl w60mstep2
def w60mx : Coll Nat :=
  ⟨.split, ⟨[⟨13, 6, ⟨.split ⟨3, 0, 0, ⟨11, 1, []⟩, ⟨18, 2, [⟨11, 0⟩, ⟨11, 1⟩]⟩⟩, ⟨18, 1⟩⟩⟩,
    ⟨4, 0, ⟨.split ⟨0, 0, 0, ⟨2, 1, []⟩, ⟨9, 2, [⟨2, 0⟩, ⟨2, 1⟩]⟩⟩, ⟨9, 1⟩⟩⟩], 2, 2, 0, [(0, ⟨some 4, 2⟩), (6, ⟨some 13, 2⟩)]⟩⟩
theorem w60mexc : Coll.moveAl (env fun t => t == 27) 7 w60mc2 ⟨19, 20⟩ = .exc (.badAlloc) w60mx ⟨26, 28⟩ := rfl

end PolyColl.Sample
