import Verif.Model.History
import Verif.Model.Reading
/-!
# Hash maps whose iterators survive rehashing

`E.lax` is the environment `E` with a hash map that leaves its iterators alone when it rehashes.
`p.Within q`: whenever `p` is not undefined it does what `q` does.  Every operation in an
environment is within the same operation in its lax version.
-/

namespace PolyColl
variable {V : Type}

/-- The same environment, except that rehashing leaves iterators of hash maps valid. -/
def Env.lax (E : Env V) : Env V := { E with strictRehash := false }

namespace Prog
variable {X Y α β : Type}

/-- `p` is undefined or does the same as `q`. -/
def Within (p q : Prog X α) : Prop := ∀ x w, p x w = .ub ∨ p x w = q x w

namespace Within

theorem refl (p : Prog X α) : Within p p := fun _ _ => Or.inr rfl

theorem bind {p q : Prog X α} {f g : α → Prog X β} (h : Within p q) (hf : ∀ a, Within (f a) (g a)) : Within (p >>= f) (q >>= g) := by
  intro x w
  show Prog.bind p f x w = _ ∨ Prog.bind p f x w = Prog.bind q g x w
  unfold Prog.bind
  rcases h x w with h | h
  · exact Or.inl (by rw [h])
  · rw [h]
    cases q x w with
    | ok a x' w' => exact hf a x' w'
    | exc e x' w' => exact Or.inr rfl
    | ub => exact Or.inl rfl

theorem tail {p : Prog X α} {f g : α → Prog X β} (hf : ∀ a, Within (f a) (g a)) : Within (p >>= f) (p >>= g) := (refl p).bind hf

theorem head {p q : Prog X α} {f : α → Prog X β} (h : Within p q) : Within (p >>= f) (q >>= f) := h.bind fun a => refl (f a)

theorem drop {p q : Prog X α} (h : Within p q) : Within p.drop q.drop := h.head

theorem ite {c : Prop} [Decidable c] {p q p' q' : Prog X α} (h : Within p q) (h' : Within p' q') :
    Within (if c then p else p') (if c then q else q') := by
  split
  · exact h
  · exact h'

theorem zoom {gt : X → Y} {st : X → Y → X} {p q : Prog Y α} (h : Within p q) : Within (Prog.zoom gt st p) (Prog.zoom gt st q) := by
  intro x w
  unfold Prog.zoom
  rcases h (gt x) w with h | h
  · exact Or.inl (by rw [h])
  · exact Or.inr (by rw [h])

theorem locally {y : Y} {p q : Prog Y β} {f : β → Y → α} (h : Within p q) : Within (Prog.locally y p f : Prog X α) (Prog.locally y q f) := by
  intro x w
  unfold Prog.locally
  rcases h y w with h | h
  · exact Or.inl (by rw [h])
  · exact Or.inr (by rw [h])

theorem ofOption {o o' : Option α} (h : o = none ∨ o = o') : Within (Prog.ofOption o : Prog X α) (Prog.ofOption o') := by
  rcases h with rfl | rfl
  · exact fun _ _ => Or.inl rfl
  · exact refl _

theorem each {f g : β → Prog X Unit} (h : ∀ b, Within (f b) (g b)) : ∀ l : List β, Within (Prog.each f l) (Prog.each g l)
  | [] => refl _
  | b :: bs => bind (h b) fun _ => each h bs

/-- What `q` guarantees, `p` does if it is defined. -/
theorem runs {p q : Prog X α} (h : Within p q) {x : X} {w : World} {Q : α → X → World → Prop} {R : Exc → X → World → Prop} (hq : Runs q x w Q R) :
    p x w = .ub ∨ Runs p x w Q R := by
  rcases h x w with h | h
  · exact Or.inl h
  · right
    unfold Runs at hq ⊢
    rw [h]
    exact hq

end Within
end Prog

open Prog

namespace TMap
variable (E : Env V)

theorem node?_lax (m : TMap V) (it : MapIt) : m.node? E it = none ∨ m.node? E it = m.node? E.lax it := by
  unfold node?
  by_cases h : m.usable E it
  · right; rw [if_pos h]; rfl
  · left; rw [if_neg h]

theorem itEq_lax (m : TMap V) (a b : MapIt) : m.itEq E a b = none ∨ m.itEq E a b = m.itEq E.lax a b := by
  unfold itEq
  by_cases h : (m.usable E a && m.usable E b)
  · right; rw [if_pos h]; rfl
  · left; rw [if_neg h]

theorem itNext_lax (m : TMap V) (it : MapIt) : m.itNext E it = none ∨ m.itNext E it = m.itNext E.lax it := by
  unfold itNext
  rcases m.node?_lax E it with h | h
  · left; rw [h]
  · right; rw [h]

theorem iter2_lax (m : TMap V) (it : MapIt) : m.iter2 E it = none ∨ m.iter2 E it = m.iter2 E.lax it := by
  unfold iter2
  cases it.node with
  | none => right; rfl
  | some i =>
    rcases m.node?_lax E it with h | h
    · left; simp only [h]
    · right; simp only [h]

theorem iter3_lax (m : TMap V) (it : MapIt) (p : Ptr) : m.iter3 E it p = none ∨ m.iter3 E it p = m.iter3 E.lax it p := by
  unfold iter3
  cases it.node with
  | none => right; rfl
  | some i =>
    rcases m.node?_lax E it with h | h
    · left; simp only [h]
    · simp only [h]
      cases m.node? E.lax it with
      | none => left; rfl
      | some n =>
        dsimp only
        by_cases hp : p = n.seg.sentinel
        · rw [if_pos hp, if_pos hp]
          rcases m.itNext_lax E it with h | h
          · left; rw [h]
          · rw [h]
            cases m.itNext E.lax it with
            | none => left; rfl
            | some it' => exact m.iter2_lax E it'
        · rw [if_neg hp, if_neg hp]; right; rfl

theorem increment_lax (m : TMap V) (it : GIter) : m.increment E it = none ∨ m.increment E it = m.increment E.lax it := by
  unfold increment
  rcases m.node?_lax E it.mapit with h | h
  · left; rw [h]
  · rw [h]
    cases m.node? E.lax it.mapit with
    | none => left; rfl
    | some n =>
      dsimp only
      by_cases h1 : it.segpos.blk = n.seg.begin.blk ∧ it.segpos.off < n.seg.end.off
      · rw [if_pos h1, if_pos h1]
        by_cases h2 : (⟨it.segpos.blk, it.segpos.off + 1⟩ : Ptr) = n.seg.sentinel
        · rw [if_pos h2, if_pos h2]
          by_cases h3 : m.usable E it.mapend = true ∧ it.mapend.node = none
          · rw [if_pos h3, if_pos ⟨rfl, h3.2⟩]
            rcases m.itNext_lax E it.mapit with h | h
            · left; rw [h]
            · rw [h]
              cases m.itNext E.lax it.mapit with
              | none => left; rfl
              | some it' => exact m.iter2_lax E it'
          · rw [if_neg h3]; left; rfl
        · rw [if_neg h2, if_neg h2]; right; rfl
      · rw [if_neg h1]; left; rfl

theorem onSeg_lax {α : Type} (it : MapIt) (p : Prog (Seg V) α) : Within (TMap.onSeg E it p) (TMap.onSeg E.lax it p) := by
  intro m w
  unfold onSeg
  rcases m.node?_lax E it with h | h
  · left; rw [h]
  · right; rw [h]

end TMap

theorem Split.insertLoop_lax (E : Env V) : ∀ (srcs : List (Src V)) (p : Ptr), Split.insertLoop E.lax p srcs = Split.insertLoop E p srcs
  | [], _ => rfl
  | s :: srcs, p => by
    unfold Split.insertLoop
    simp only [Split.insertLoop_lax E srcs]
    rfl

theorem Split.insertInput_lax (E : Env V) (p : Ptr) (srcs : List (Src V)) : Split.insertInput E.lax p srcs = Split.insertInput E p srcs := by
  unfold Split.insertInput
  rw [Split.insertLoop_lax]

namespace Seg
variable (E : Env V)

theorem insertRangeEnd_lax (fwd : Bool) (srcs : List (Src V)) : insertRangeEnd E.lax fwd srcs = insertRangeEnd E fwd srcs := by
  unfold insertRangeEnd
  simp only [Split.insertInput_lax]
  rfl

theorem insertRangeLocal_lax (fwd : Bool) (p : Ptr) (srcs : List (Src V)) : insertRangeLocal E.lax fwd p srcs = insertRangeLocal E fwd p srcs := by
  unfold insertRangeLocal
  simp only [Split.insertInput_lax]
  rfl

theorem insertRangeBase_lax (fwd : Bool) (p : Ptr) (srcs : List (Src V)) : insertRangeBase E.lax fwd p srcs = insertRangeBase E fwd p srcs := by
  unfold insertRangeBase
  simp only [insertRangeLocal_lax]

theorem eqElems_lax {X : Type} (t : Ty) : ∀ xs ys : List V, (E.lax.eqElems t xs ys : Prog X Bool) = E.eqElems t xs ys
  | [], _ => rfl
  | _ :: _, [] => rfl
  | x :: xs, y :: ys => by
    unfold Env.eqElems
    simp only [eqElems_lax t xs ys]
    rfl

theorem equal_lax {X : Type} (x y : Seg V) : (equal E.lax x y : Prog X Bool) = equal E x y := by
  unfold equal Packed.equal Split.equal Env.eqVec
  simp only [eqElems_lax]

end Seg

namespace Coll
variable (E : Env V)

theorem onMap_lax {α : Type} {p q : Prog (TMap V) α} (h : Within p q) : Within (onMap p) (onMap q) := h.zoom

theorem onSeg_lax {α : Type} (it : MapIt) (p : Prog (Seg V) α) : Within (onMap (TMap.onSeg E it p)) (onMap (TMap.onSeg E.lax it p)) :=
  onMap_lax (TMap.onSeg_lax E it p)

theorem registerTypes_lax : ∀ ts : List TI, Within (registerTypes E ts) (registerTypes E.lax ts)
  | [] => .refl _
  | t :: ts => (Within.refl (insertNew E t)).bind fun _ => registerTypes_lax ts

theorem toLocal_lax (c : Coll V) (l : LIter) : c.toLocal E l = none ∨ c.toLocal E l = c.toLocal E.lax l := by
  unfold toLocal
  rcases c.map.node?_lax E l.mapit with h | h
  · left; rw [h]
  · right; rw [h]

theorem toBase_lax (c : Coll V) (l : LIter) : c.toBase E l = none ∨ c.toBase E l = c.toBase E.lax l := by
  unfold toBase
  rcases c.map.node?_lax E l.mapit with h | h
  · left; rw [h]
  · right; rw [h]

theorem retIter_lax (it : MapIt) (p : Ptr) : Within (retIter E it p) (retIter E.lax it p) :=
  .tail fun c => .ofOption (c.map.iter3_lax E it p)

theorem iteratorFrom_lax (m : TMap V) (l : LIter) (e : MapIt) :
    m.iteratorFrom E l e = none ∨ m.iteratorFrom E l e = m.iteratorFrom E.lax l e := by
  unfold TMap.iteratorFrom
  by_cases h : m.usable E e = true ∧ e.node = none
  · have h' : m.usable E.lax e = true ∧ e.node = none := ⟨by simp [TMap.usable, Env.lax], h.2⟩
    rw [if_pos h, if_pos h']
    rcases m.iter3_lax E l.mapit l.pos with h1 | h1
    · left; rw [h1]; rfl
    · right; rw [h1]
  · left; rw [if_neg h]

theorem retIterEnd_lax (it e : MapIt) (p : Ptr) : Within (retIterEnd E it e p) (retIterEnd E.lax it e p) :=
  .tail fun c => .ofOption (iteratorFrom_lax E c.map ⟨it, p⟩ e)

theorem local_lax (it : MapIt) (p : Ptr) :
    Within (do let c ← Prog.get; Prog.ofOption (c.toLocal E ⟨it, p⟩) : Prog (Coll V) LIter) (do let c ← Prog.get; Prog.ofOption (c.toLocal E.lax ⟨it, p⟩)) :=
  .tail fun c => .ofOption (c.toLocal_lax E ⟨it, p⟩)

theorem insert_lax (a : Arg V) : Within (insert E a) (insert E.lax a) :=
  (Within.refl (forArg E a)).bind fun it => (onSeg_lax E it _).bind fun p => retIter_lax E it p

theorem insertRange_lax : ∀ as : List (Arg V), Within (insertRange E as) (insertRange E.lax as)
  | [] => .refl _
  | a :: as => (insert_lax E a).bind fun _ => insertRange_lax as

theorem insertFrom_lax : ∀ xs : List (Item V), Within (insertFrom E xs) (insertFrom E.lax xs)
  | [] => .refl _
  | x :: xs => (Within.refl (forProto E x.id x.proto)).bind fun it => (onSeg_lax E it _).bind fun _ => insertFrom_lax xs

theorem hintStep_lax (hint : GIter) (it : MapIt) (t : Ty) (src : Src V) : Within (hintStep E hint it t src) (hintStep E.lax hint it t src) :=
  .tail fun c => (Within.ofOption (c.map.itEq_lax E hint.mapit it)).bind fun _ =>
    .ite ((onSeg_lax E it _).bind fun p => (retIter_lax E it p).bind fun h => .tail fun c => .ofOption (c.map.increment_lax E h))
      ((onSeg_lax E it _).head)

theorem insertHintRange_lax : ∀ (as : List (Arg V)) (hint : GIter), Within (insertHintRange E hint as) (insertHintRange E.lax hint as)
  | [], _ => .refl _
  | a :: as, hint => (Within.refl (forArg E a)).bind fun it => (hintStep_lax E hint it _ _).bind fun h => insertHintRange_lax as h

theorem insertHintFrom_lax : ∀ (xs : List (Item V)) (hint : GIter), Within (insertHintFrom E hint xs) (insertHintFrom E.lax hint xs)
  | [], _ => .refl _
  | x :: xs, hint => (Within.refl (forProto E x.id x.proto)).bind fun it => (hintStep_lax E hint it _ _).bind fun h => insertHintFrom_lax xs h

theorem hintLoop_lax (it : MapIt) (t : Ty) : ∀ (vs : List V) (hint : GIter), Within (hintLoop E hint it t vs) (hintLoop E.lax hint it t vs)
  | [], _ => .refl _
  | _ :: vs, hint => (hintStep_lax E hint it t _).bind fun h => hintLoop_lax it t vs h

theorem posLoopBase_lax (it : MapIt) : ∀ (as : List (Arg V)) (p : Ptr), Within (posLoopBase E it p as) (posLoopBase E.lax it p as)
  | [], _ => .refl _
  | _ :: as, _ => (onSeg_lax E it _).bind fun _ => posLoopBase_lax it as _

theorem posLoopLocal_lax (it : MapIt) (t : Ty) : ∀ (srcs : List (Src V)) (p : Ptr), Within (posLoopLocal E it t p srcs) (posLoopLocal E.lax it t p srcs)
  | [], _ => .refl _
  | _ :: srcs, _ => (onSeg_lax E it _).bind fun q => .tail fun c => (Within.ofOption (c.toLocal_lax E ⟨it, q⟩)).bind fun _ => posLoopLocal_lax it t srcs _

theorem eraseSpan_lax (lseg mapend : MapIt) (lastPos : Ptr) : ∀ (fuel : Nat) (fseg : MapIt),
    Within (eraseSpan E fseg lseg mapend lastPos fuel) (eraseSpan E.lax fseg lseg mapend lastPos fuel)
  | 0, _ => .refl _
  | fuel + 1, fseg => .tail fun c => (Within.ofOption (c.map.itNext_lax E fseg)).bind fun f =>
    (Within.ofOption (c.map.itEq_lax E f lseg)).bind fun _ =>
      .ite ((Within.ofOption (c.map.itEq_lax E f mapend)).bind fun _ => .ite (.refl _) ((onSeg_lax E f _).bind fun p => retIterEnd_lax E f mapend p))
        ((onSeg_lax E f _).bind fun _ => eraseSpan_lax lseg mapend lastPos fuel f)

theorem emplace_lax (t : TI) (src : Src V) : Within (emplace E t src) (emplace E.lax t src) :=
  (Within.refl (forT E t)).bind fun it => (onSeg_lax E it _).bind fun p => retIter_lax E it p

theorem emplaceHint_lax (hint : GIter) (t : TI) (src : Src V) : Within (emplaceHint E hint t src) (emplaceHint E.lax hint t src) :=
  (Within.refl (forT E t)).bind fun it => .tail fun c => (Within.ofOption (c.map.itEq_lax E hint.mapit it)).bind fun _ =>
    .ite ((onSeg_lax E it _).bind fun p => retIter_lax E it p) ((onSeg_lax E it _).bind fun p => retIter_lax E it p)

theorem insertHint_lax (hint : GIter) (a : Arg V) : Within (insertHint E hint a) (insertHint E.lax hint a) :=
  (Within.refl (forArg E a)).bind fun it => .tail fun c => (Within.ofOption (c.map.itEq_lax E hint.mapit it)).bind fun _ =>
    .ite ((onSeg_lax E it _).bind fun p => retIter_lax E it p) ((onSeg_lax E it _).bind fun p => retIter_lax E it p)

theorem insertRangeTerminal_lax (fwd : Bool) (t : TI) (srcs : List (Src V)) :
    Within (insertRangeTerminal E fwd t srcs) (insertRangeTerminal E.lax fwd t srcs) := by
  cases srcs with
  | nil => exact .refl _
  | cons s srcs =>
    refine (Within.refl (forT E t)).bind fun it => ?_
    rw [Seg.insertRangeEnd_lax]
    exact (onSeg_lax E it _).head

theorem insertHintRangeTerminal_lax (hint : GIter) (fwd : Bool) (t : TI) (srcs : List (Src V)) :
    Within (insertHintRangeTerminal E hint fwd t srcs) (insertHintRangeTerminal E.lax hint fwd t srcs) := by
  cases srcs with
  | nil => exact .refl _
  | cons s srcs =>
    refine (Within.refl (forT E t)).bind fun it => .tail fun c => (Within.ofOption (c.map.itEq_lax E hint.mapit it)).bind fun _ => ?_
    rw [Seg.insertRangeEnd_lax, Seg.insertRangeBase_lax]
    exact .ite (onSeg_lax E it _).head (onSeg_lax E it _).head

theorem eraseRange_lax (first last : GIter) : Within (eraseRange E first last) (eraseRange E.lax first last) :=
  .tail fun c => (Within.ofOption (c.map.itEq_lax E first.mapit last.mapit)).bind fun _ =>
    .ite (.ite (retIterEnd_lax E _ _ _) ((onSeg_lax E _ _).bind fun p => retIterEnd_lax E _ _ p))
      ((onSeg_lax E _ _).bind fun _ => eraseSpan_lax E _ _ _ _ _)

theorem collect_lax (sub : Ty → TI) (c : Coll V) (last : GIter) : ∀ (fuel : Nat) (it : GIter),
    c.collect E sub last it fuel = none ∨ c.collect E sub last it fuel = c.collect E.lax sub last it fuel
  | 0, _ => Or.inl rfl
  | fuel + 1, it => by
    unfold collect
    by_cases h : it.segpos = last.segpos
    · rw [if_pos h, if_pos h]; exact Or.inr rfl
    · rw [if_neg h, if_neg h]
      rcases c.map.node?_lax E it.mapit with h1 | h1
      · left; rw [h1]
      · rw [h1]
        rcases c.map.increment_lax E it with h2 | h2
        · left
          rw [h2]
          cases c.map.node? E.lax it.mapit <;> cases c.map.deref it.segpos <;> rfl
        · rw [h2]
          cases c.map.node? E.lax it.mapit with
          | none => exact Or.inl rfl
          | some n =>
            cases c.map.deref it.segpos with
            | none => exact Or.inl rfl
            | some v =>
              cases c.map.increment E.lax it with
              | none => exact Or.inl rfl
              | some it' =>
                dsimp only
                rcases collect_lax sub c last fuel it' with h3 | h3
                · left; rw [h3]; rfl
                · right; rw [h3]

theorem collectLocal_lax (c : Coll V) (first last : LIter) :
    c.collectLocal E first last = none ∨ c.collectLocal E first last = c.collectLocal E.lax first last := by
  unfold collectLocal
  rcases c.map.node?_lax E first.mapit with h | h
  · left; rw [h]
  · right; rw [h]

theorem insertColl_lax (sub : Ty → TI) (src : Coll V) (first last : GIter) :
    Within (insertColl E sub src first last) (insertColl E.lax sub src first last) :=
  (Within.ofOption (src.collect_lax E sub last _ first)).bind fun items => insertFrom_lax E items

theorem insertHintColl_lax (sub : Ty → TI) (hint : GIter) (src : Coll V) (first last : GIter) :
    Within (insertHintColl E sub hint src first last) (insertHintColl E.lax sub hint src first last) :=
  (Within.ofOption (src.collect_lax E sub last _ first)).bind fun items => insertHintFrom_lax E items hint

theorem insertFromLocal_lax (t : TI) (proto : Seg V) (vals : List V) :
    Within (insertFromLocal E t proto vals) (insertFromLocal E.lax t proto vals) := by
  unfold insertFromLocal
  exact .ite (.refl _) ((Within.refl (forProto E t proto)).bind fun it => .each (fun v => (onSeg_lax E it _).head) vals)

theorem insertHintFromLocal_lax (hint : GIter) (t : TI) (proto : Seg V) (vals : List V) :
    Within (insertHintFromLocal E hint t proto vals) (insertHintFromLocal E.lax hint t proto vals) := by
  unfold insertHintFromLocal
  exact .ite (.refl _) ((Within.refl (forProto E t proto)).bind fun it => hintLoop_lax E it _ vals hint)

theorem insertLocalColl_lax (sub : Ty → TI) (src : Coll V) (first last : LIter) :
    Within (insertLocalColl E sub src first last) (insertLocalColl E.lax sub src first last) :=
  (Within.ofOption (src.collectLocal_lax E first last)).bind fun _ => insertFromLocal_lax E _ _ _

theorem insertHintLocalColl_lax (sub : Ty → TI) (hint : GIter) (src : Coll V) (first last : LIter) :
    Within (insertHintLocalColl E sub hint src first last) (insertHintLocalColl E.lax sub hint src first last) :=
  (Within.ofOption (src.collectLocal_lax E first last)).bind fun _ => insertHintFromLocal_lax E hint _ _ _

theorem eqLoop_lax {X : Type} (y : TMap V) : ∀ (ps : List (Node V)) (s : Nat), Within (eqLoop E y ps s : Prog X (Option Nat)) (eqLoop E.lax y ps s)
  | [], _ => .refl _
  | p :: ps, s => by
    unfold eqLoop
    simp only [Seg.equal_lax]
    exact .ite (.ite (.refl _) (eqLoop_lax y ps _)) ((Within.ofOption (y.node?_lax E _)).bind fun n => (Within.refl (Seg.equal E p.seg n.seg)).bind fun b =>
      .ite (eqLoop_lax y ps _) (.refl _))

theorem equal_lax {X : Type} (x y : Coll V) : Within (equal E x y : Prog X Bool) (equal E.lax x y) := (eqLoop_lax E y.map _ _).head

theorem query_lax {α : Type} (f : Seg V → α) (t : TI) : Within (query E f t) (query E.lax f t) :=
  (Within.refl (forInfo E t)).bind fun it => .tail fun c => (Within.ofOption (c.map.node?_lax E it)).head

theorem segWalk_lax (c : Coll V) : ∀ (fuel : Nat) (it : MapIt), c.segWalk E it fuel = none ∨ c.segWalk E it fuel = c.segWalk E.lax it fuel
  | 0, _ => Or.inl rfl
  | fuel + 1, it => by
    unfold segWalk
    rcases c.map.itEq_lax E it c.map.end with h | h
    · left; rw [h]
    · rw [h]
      cases c.map.itEq E.lax it c.map.end with
      | none => exact Or.inl rfl
      | some b =>
        cases b with
        | true => exact Or.inr rfl
        | false =>
          dsimp only
          unfold segInfo
          rcases c.map.node?_lax E it with h1 | h1
          · left; rw [h1]; rfl
          · rw [h1]
            cases c.map.node? E.lax it with
            | none => exact Or.inl rfl
            | some n =>
              dsimp only [Option.map_some]
              rcases c.map.itNext_lax E it with h2 | h2
              · left; rw [h2]
              · rw [h2]
                cases c.map.itNext E.lax it with
                | none => exact Or.inl rfl
                | some it' =>
                  dsimp only
                  rcases segWalk_lax c fuel it' with h3 | h3
                  · left; rw [h3]; rfl
                  · right; rw [h3]

/-- An operation on a const collection. -/
theorem ReadOp.run_lax {α : Type} (op : ReadOp V α) : Within (op.run E) (op.run E.lax) := by
  cases op with
  | isRegistered t => exact .refl _
  | empty => exact .refl _
  | size => exact .refl _
  | emptyOf t => exact query_lax E _ t
  | sizeOf t => exact query_lax E _ t
  | maxSizeOf t => exact query_lax E _ t
  | capacityOf t => exact query_lax E _ t
  | allocator => exact .refl _
  | begin => exact .tail fun c => .ofOption (c.map.iter2_lax E _)
  | «end» => exact .refl _
  | beginOf t => exact (Within.refl (forInfo E t)).bind fun it => .tail fun c => (Within.ofOption (c.map.node?_lax E it)).head
  | endOf t => exact (Within.refl (forInfo E t)).bind fun it => .tail fun c => (Within.ofOption (c.map.node?_lax E it)).head
  | segments => exact .tail fun c => .ofOption (c.segWalk_lax E _ _)
  | next it => exact .tail fun c => .ofOption (c.map.increment_lax E it)
  | deref it => exact .refl _
  | derefAt o l => exact .refl _
  | toLocal l => exact .tail fun c => .ofOption (c.toLocal_lax E l)
  | toBase l => exact .tail fun c => .ofOption (c.toBase_lax E l)
  | advance o l n => exact .refl _
  | difference o a b => exact .refl _
  | less o a b => exact .refl _
  | equal d => exact .tail fun c => equal_lax E c d
  | notEqual d => exact .tail fun c => (equal_lax E c d).head

end Coll

/-- An operation on one collection. -/
theorem COp.run_lax (E : Env V) (op : COp V) : Within (op.run E) (op.run E.lax) := by
  cases op with
  | registerTypes ts => exact Coll.registerTypes_lax E ts
  | lookup t => exact .refl _
  | reserveAll n => exact .refl _
  | reserveInfo t n => exact (Within.refl (Coll.forInfo E t)).bind fun it => Coll.onSeg_lax E it _
  | reserveT t n => exact (Within.refl (Coll.forT E t)).bind fun it => Coll.onSeg_lax E it _
  | shrinkAll => exact .refl _
  | shrinkInfo t => exact (Within.refl (Coll.forInfo E t)).bind fun it => Coll.onSeg_lax E it _
  | emplace t src => exact (Coll.emplace_lax E t src).drop
  | emplaceHint h t src => exact (Coll.emplaceHint_lax E h t src).drop
  | emplacePosBase p t src => exact ((Coll.onSeg_lax E _ _).head).drop
  | emplacePosLocal p t src => exact ((Coll.onSeg_lax E _ _).bind fun q => Coll.local_lax E _ q).drop
  | insert a => exact (Coll.insert_lax E a).drop
  | insertHint h a => exact (Coll.insertHint_lax E h a).drop
  | insertPosBase p a => exact ((Coll.onSeg_lax E _ _).head).drop
  | insertPosLocal p a => exact ((Coll.onSeg_lax E _ _).bind fun q => Coll.local_lax E _ q).drop
  | insertRange as => exact Coll.insertRange_lax E as
  | insertRangeTerminal fwd t srcs => exact Coll.insertRangeTerminal_lax E fwd t srcs
  | insertHintRange h as => exact (Coll.insertHintRange_lax E as h).drop
  | insertHintRangeTerminal h fwd t srcs => exact Coll.insertHintRangeTerminal_lax E h fwd t srcs
  | insertPosRangeBase p as => exact ((Coll.posLoopBase_lax E _ as _).head).drop
  | insertPosRangeLocal p t srcs => exact ((Coll.posLoopLocal_lax E _ _ srcs _).head).drop
  | erase p => exact ((Coll.onSeg_lax E _ _).bind fun q => Coll.retIterEnd_lax E _ _ q).drop
  | eraseLocalBase p => exact ((Coll.onSeg_lax E _ _).head).drop
  | eraseLocal p => exact ((Coll.onSeg_lax E _ _).bind fun q => Coll.local_lax E _ q).drop
  | eraseRange p q => exact (Coll.eraseRange_lax E p q).drop
  | eraseLocalRangeBase p q => exact ((Coll.onSeg_lax E _ _).head).drop
  | eraseLocalRange p q => exact ((Coll.onSeg_lax E _ _).bind fun q => Coll.local_lax E _ q).drop
  | clearAll => exact .refl _
  | clearInfo t => exact (Within.refl (Coll.forInfo E t)).bind fun it => Coll.onSeg_lax E it _
  | apply o p a => exact (Within.tail fun c => .tail fun n => Coll.onSeg_lax E _ _).drop
  | rebind p q => exact .tail fun c => .tail fun r => .tail fun n => Coll.onSeg_lax E _ _

/-! ### Constructors and assignments -/

namespace TMap
variable (E : Env V)

theorem buildCache_lax (l : List (TI × MapIt)) : (buildCache E.lax l : Prog (TMap V) Unit) = buildCache E l := rfl

theorem copyNodes_lax {X : Type} (al : Alloc) : ∀ ns : List (Node V), (copyNodes E.lax al ns : Prog X (List (Node V))) = copyNodes E al ns
  | [] => rfl
  | n :: ns => by
    unfold copyNodes
    rw [copyNodes_lax al ns]
    rfl

theorem moveNodes_lax (al : Alloc) : moveNodes E.lax al = moveNodes E al := by
  funext l
  induction l with
  | nil => rfl
  | cons n ns ih =>
    funext w
    unfold moveNodes
    rw [ih]
    rfl

theorem copyAl_lax {X : Type} (x : TMap V) (al : Alloc) : (copyAl E.lax x al : Prog X (TMap V)) = copyAl E x al := by
  unfold copyAl
  rw [copyNodes_lax]
  rfl

theorem moveAl_lax (al : Alloc) : moveAl E.lax al = moveAl E al := by
  unfold moveAl
  rw [moveNodes_lax]
  rfl

theorem assign_lax (x : TMap V) : assign E.lax x = assign E x := by
  unfold assign assignBody
  simp only [copyNodes_lax]
  rfl

theorem moveAssign_lax : moveAssign E.lax = moveAssign E := by
  unfold moveAssign
  simp only [moveNodes_lax]
  rfl

end TMap

namespace Prog.Within
variable {α : Type}

theorem on {i : Nat} {p q : Prog (Coll V) α} (h : Within p q) : Within (Sys.on i p) (Sys.on i q) := h.zoom

theorem construct {i : Nat} {p q : Prog (Sys V) (Coll V)} (h : Within p q) : Within (Sys.construct i p) (Sys.construct i q) := h.head

end Prog.Within

/-- An operation of a program. -/
theorem Op.run_lax (E : Env V) (k : Kind) (sub : Ty → TI) (op : Op V) : Within (op.run E k sub) (op.run E.lax k sub) := by
  cases op with
  | on i op => exact (op.run_lax E).on
  | create i al => exact .refl _
  | fromRange i al as => exact (Within.locally (Coll.insertRange_lax E as)).construct
  | fromTerminal i al fwd t srcs => exact (Within.locally (Coll.insertRangeTerminal_lax E fwd t srcs)).construct
  | fromColl i j al f l => exact .tail fun s => .ite (.refl _) (Within.locally (Coll.insertColl_lax E sub _ f l)).construct
  | fromLocalColl i j al f l => exact .tail fun s => .ite (.refl _) (Within.locally (Coll.insertLocalColl_lax E sub _ f l)).construct
  | copy i j => exact .tail fun s => .ite (.refl _) (Within.construct (by unfold Coll.copy TMap.copy; rw [TMap.copyAl_lax]; exact .refl _))
  | copyAl i j al => exact .tail fun s => .ite (.refl _) (Within.construct (by unfold Coll.copyAl; rw [TMap.copyAl_lax]; exact .refl _))
  | move i j => exact .refl _
  | moveAl i j al => exact .ite (.refl _) (Within.construct (.on (by unfold Coll.moveAl; rw [TMap.moveAl_lax]; exact .refl _)))
  | assign i j => exact .tail fun s => .ite (.refl _) (.on (by unfold Coll.assign; rw [TMap.assign_lax]; exact .refl _))
  | moveAssign i j => exact .ite (.refl _) (Within.zoom (by unfold Coll.moveAssign; rw [TMap.moveAssign_lax]; exact .refl _))
  | swap i j => exact .refl _
  | insertColl i j f l => exact .tail fun s => .ite (.refl _) (.on (Coll.insertColl_lax E sub _ f l))
  | insertLocalColl i j f l => exact .tail fun s => .ite (.refl _) (.on (Coll.insertLocalColl_lax E sub _ f l))
  | insertHintColl i j h f l => exact .tail fun s => .ite (.refl _) (.on (Coll.insertHintColl_lax E sub h _ f l).drop)
  | insertHintLocalColl i j h f l => exact .tail fun s => .ite (.refl _) (.on (Coll.insertHintLocalColl_lax E sub h _ f l).drop)

/-- What a program reaches without undefined behaviour it reaches with a lax hash map as well. -/
theorem Reach.lax {E : Env V} {k : Kind} {sub : Ty → TI} {ok : Arg V → Prop} {s : Sys V} {w : World} (h : Reach E k sub ok s w) :
    Reach E.lax k sub ok s w := by
  induction h with
  | start al w hw => exact .start al w hw
  | ok h op ha hr ih =>
    rcases op.run_lax E k sub _ _ with h' | h'
    · rw [h'] at hr; cases hr
    · exact .ok ih op ha (h' ▸ hr)
  | exc h op ha hr ih =>
    rcases op.run_lax E k sub _ _ with h' | h'
    · rw [h'] at hr; cases hr
    · exact .exc ih op ha (h' ▸ hr)

end PolyColl
