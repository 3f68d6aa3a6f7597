import Verif.Lemmas.AlgoPart
/-!
# is_permutation
-/

namespace PolyColl
namespace StdAlg
variable {m : Type → Type} [Monad m] [LawfulMonad m] {A B : Type}

/-- The scan of `is_permutation` for the first `k` elements of `l`, those before being `pre`. -/
def permPart (p : A → A → m Bool) (q : A → B → m Bool) (bs : List B) : Nat → List A → List A → m Bool
  | 0, _, _ => pure true
  | _ + 1, _, [] => pure true
  | k + 1, pre, a :: l => do
    let f ← findIf (p a) pre
    if f ≠ pre.length then permPart p q bs k (pre ++ [a]) l
    else
      let j ← countIf (q a) bs
      if j = 0 then pure false
      else if j ≠ (← countIf (p a) (a :: l)) then pure false
      else permPart p q bs k (pre ++ [a]) l

theorem permPart_add (p : A → A → m Bool) (q : A → B → m Bool) (bs : List B) (k : Nat) : ∀ (j : Nat) (pre l : List A),
    permPart p q bs (j + k) pre l = permPart p q bs j pre l >>= fun b =>
      if b then permPart p q bs k (pre ++ l.take j) (l.drop j) else pure false
  | 0, pre, l => by simp [permPart]
  | j + 1, pre, [] => by cases k <;> simp [permPart]
  | j + 1, pre, a :: l => by
    have ih := permPart_add p q bs k j (pre ++ [a]) l
    simp only [Nat.succ_add, permPart, bind_assoc, ih, List.take_succ_cons, List.drop_succ_cons, List.append_assoc, List.singleton_append]
    refine bind_congr fun f => ?_
    split
    · rfl
    · simp only [bind_assoc]
      refine bind_congr fun j => ?_
      split
      · simp
      · simp only [bind_assoc]
        refine bind_congr fun i => ?_
        split
        · simp
        · rfl

end StdAlg

open Prog
namespace Algo
variable {V : Type} (E : Env V) {m : Type → Type} [Monad m] [LawfulMonad m] {B : Type}
open Coll

theorem findIf_from {c : Coll V} {w : World} (h : c.Inv E w) (Ts : List Ty) (p : Passed V → m Bool) {it last : GIter} {r : Nat}
    {q : Spec.State.Pos} (hi : AtRank E c it r) (hl : c.At E last q) (hr : r ≤ c.abs.rank q) :
    Sim (fun x n => AtRank E c x (r + n) ∧ n ≤ ((before c q).drop r).length) (findIf E c Ts it last p)
      (StdAlg.findIf p (passed Ts ((before c q).drop r))) := by
  obtain ⟨ps, h1, h2, h3⟩ := cut_from E h hi hl hr
  unfold findIf genericFind
  refine Sim.congr (y := StdAlg.findIf p (passed Ts ((before c q).drop r)) >>= pure) ?_ (by simp)
  exact Sim.bind (Sim.defd h1 (genericFind_sim E h Ts (search_findIf p) h2 h3)) fun x k hx => Sim.pure hx

theorem countIf_from {c : Coll V} {w : World} (h : c.Inv E w) (Ts : List Ty) (p : Passed V → m Bool) {it last : GIter} {r : Nat}
    {q : Spec.State.Pos} (hi : AtRank E c it r) (hl : c.At E last q) (hr : r ≤ c.abs.rank q) :
    Sim Eq (countIf E c Ts it last p) (StdAlg.countIf p (passed Ts ((before c q).drop r))) := by
  obtain ⟨ps, h1, h2, h3⟩ := cut_from E h hi hl hr
  refine Sim.defd h1 ((countIn_sim E (Inv.core E h) Ts p h2 0).congr ?_)
  simp

theorem permInner_sim {c : Coll V} {w : World} (h : c.Inv E w) (Ts : List Ty) (p : Passed V → Passed V → m Bool) (p2 : Passed V → B → m Bool)
    {first last : GIter} {q : Spec.State.Pos} {r0 : Nat} (hf : AtRank E c first r0) (hl : c.At E last q) (bs : List B) {it : MapIt}
    {n : Node V} (hu : c.map.Use E it n) {info : TI} (hi : E.tiTy info = n.seg.ty) :
    ∀ (k a r : Nat), a + k ≤ n.seg.size → c.abs.rank (some (n.seg.ty, a)) = r → r0 ≤ r → r + k ≤ c.abs.rank q →
      Sim Eq (permInner E c Ts first last bs p p2 info (placesAt it n.seg a k))
        (StdAlg.permPart p p2 bs k (passed Ts ((c.abs.typedFlat.take r).drop r0)) (passed Ts ((before c q).drop r))) := by
  intro k
  induction k with
  | zero => intro a r _ _ _ _; exact Sim.pure rfl
  | succ k ih =>
    intro a r ha hr h0 hq
    rw [placesAt_succ, permInner]
    have hk : a < n.seg.elems.length := by have : n.seg.size = n.seg.elems.length := rfl; omega
    have hv : n.seg.elems[a]? = some (n.seg.elems[a]'hk) := List.getElem?_eq_getElem hk
    obtain ⟨g, g1, g2⟩ := iteratorFrom_eq E h hu (k := a) (by omega) hl.endUsable hl.endNode
    rw [hr] at g2
    have hx := typedFlat_at E h.map hu.mem hv
    rw [hr] at hx
    have hlt : r < (before c q).length := by rw [before_length E h.map hl]; omega
    have hget : (before c q)[r]'hlt = (n.seg.ty, n.seg.elems[a]'hk) := by
      have : (before c q)[r]? = some (n.seg.ty, n.seg.elems[a]'hk) := by
        rw [before, List.getElem?_take_of_lt (by omega), hx]
      rw [List.getElem?_eq_getElem hlt] at this
      exact Option.some.inj this
    have hrest := ih (a + 1) (r + 1) (by omega) (by rw [rank_add E h.map hu.mem, hr]) (by omega) (by omega)
    have hpre : passed Ts ((c.abs.typedFlat.take (r + 1)).drop r0) =
        passed Ts ((c.abs.typedFlat.take r).drop r0) ++ [Passed.of Ts (n.seg.ty, n.seg.elems[a]'hk)] := by
      have h1 := (List.getElem?_eq_some_iff.1 hx).1
      rw [List.take_add_one, hx, List.drop_append_of_le_length (by rw [List.length_take]; omega), passed_append]
      rfl
    rw [hpre] at hrest
    obtain ⟨q', hq1, hq2⟩ := id g2
    have hfind := findIf_from E h Ts (p (Passed.of Ts (n.seg.ty, n.seg.elems[a]'hk))) hf hq1 (by omega)
    have hcount := countIf_from E h Ts (p (Passed.of Ts (n.seg.ty, n.seg.elems[a]'hk))) g2 hl (by omega)
    have hlen := before_length E h.map hq1
    simp only [before, hq2] at hfind hlen
    refine Sim.defd (derefAs_eq E (Inv.core E h) Ts hi hu rfl hv) (Sim.defd g1 ?_)
    have hcons : passed Ts ((before c q).drop r) =
        Passed.of Ts (n.seg.ty, n.seg.elems[a]'hk) :: passed Ts ((before c q).drop (r + 1)) := by
      rw [List.drop_eq_getElem_cons hlt, hget]
      rfl
    rw [hcons] at hcount ⊢
    rw [StdAlg.permPart]
    refine hfind.bind fun x j hx => ?_
    obtain ⟨k1, k2⟩ := hx
    have hiff : x.segpos ≠ g.segpos ↔ j ≠ (passed Ts ((c.abs.typedFlat.take r).drop r0)).length := by
      rw [ne_eq, k1.eq E (Inv.core E h) g2, passed_length, List.length_drop, hlen]
      omega
    simp only [hiff]
    by_cases hj : j = (passed Ts ((c.abs.typedFlat.take r).drop r0)).length
    · rw [if_neg (by simpa using hj), if_neg (by simpa using hj)]
      refine Sim.callBind fun k => ?_
      by_cases hk0 : k = 0
      · rw [if_pos hk0, if_pos hk0]
        exact Sim.pure rfl
      · rw [if_neg hk0, if_neg hk0]
        refine hcount.bind fun i i' hi => ?_
        subst hi
        by_cases hki : k = i
        · rw [if_neg (by simpa using hki), if_neg (by simpa using hki)]
          exact hrest
        · rw [if_pos hki, if_pos hki]
          exact Sim.pure rfl
    · rw [if_pos hj, if_pos hj]
      exact hrest

theorem permOuter_sim {c : Coll V} {w : World} (h : c.Inv E w) (Ts : List Ty) (p : Passed V → Passed V → m Bool) (p2 : Passed V → B → m Bool)
    {first last : GIter} {q : Spec.State.Pos} {r0 : Nat} (hf : AtRank E c first r0) (hl : c.At E last q) (bs : List B)
    {f : Bool} {ps : List SegInfo} {r : Nat} {l : List (Ty × V)} (hc : Cut E c f ps r l) :
    l = (before c q).drop r → r0 ≤ r → r ≤ c.abs.rank q →
    Sim Eq (permOuter E c Ts first last bs p p2 ps)
      (StdAlg.permPart p p2 bs l.length (passed Ts ((c.abs.typedFlat.take r).drop r0)) (passed Ts l)) := by
  induction hc with
  | nil f r => intro _ _ _; exact Sim.pure rfl
  | @cons f i is n a b r l hp hr hz hc ih =>
    intro he h0 hrq
    have hle := hp.le
    have hle' := hp.le'
    have hlen : (sliceOf n.seg a (b - a)).length = b - a := sliceOf_length (by omega)
    have hd : l = (before c q).drop (r + (b - a)) := by
      rw [← List.drop_drop, ← he, List.drop_append, List.drop_eq_nil_of_le (by omega), hlen, Nat.sub_self]
      simp
    have hle : r + (b - a) ≤ c.abs.rank q := by
      have := congrArg List.length he
      rw [List.length_append, List.length_drop, before_length E h.map hl, hlen] at this
      omega
    rw [List.length_append, hlen, StdAlg.permPart_add, permOuter]
    refine Sim.defd (hp.places E) ?_
    have hty : E.tiTy i.info = n.seg.ty := by rw [hp.info]; exact (h.map.ty n hp.use.mem).symm
    have hin := permInner_sim E h Ts p p2 hf hl bs hp.use hty (b - a) a r (by omega) hr h0 hle
    rw [← he] at hin
    refine hin.bind fun x y hxy => ?_
    subst hxy
    refine Sim.ite (fun _ => ?_) (fun _ => Sim.pure rfl)
    have hdr : (passed Ts (sliceOf n.seg a (b - a) ++ l)).drop (b - a) = passed Ts l := by
      rw [passed, ← List.map_drop, List.drop_append, List.drop_eq_nil_of_le (by omega), hlen, Nat.sub_self]
      rfl
    have hrl : r ≤ c.abs.typedFlat.length := by
      have := before_length E h.map hl
      rw [List.length_take] at this
      omega
    have htk : passed Ts ((c.abs.typedFlat.take r).drop r0) ++ (passed Ts (sliceOf n.seg a (b - a) ++ l)).take (b - a) =
        passed Ts ((c.abs.typedFlat.take (r + (b - a))).drop r0) := by
      have : (sliceOf n.seg a (b - a) ++ l).take (b - a) = (c.abs.typedFlat.drop r).take (b - a) := by
        rw [he, before, List.drop_take, List.take_take, Nat.min_eq_left (by omega)]
      rw [passed, passed, passed, ← List.map_take, this, ← List.map_append, List.take_add, List.drop_append_of_le_length (by rw [List.length_take]; omega)]
    rw [hdr, htk]
    exact ih hd (by omega) hle

theorem permSuffix_sim {c : Coll V} {w : World} (h : c.Inv E w) (Ts : List Ty) (p : Passed V → Passed V → m Bool) (p2 : Passed V → B → m Bool)
    {it last : GIter} {r : Nat} {q : Spec.State.Pos} (hi : AtRank E c it r) (hl : c.At E last q) (hr : r ≤ c.abs.rank q) (bs : List B) :
    Sim Eq (permSuffix E c Ts it last bs p p2)
      (StdAlg.permPart p p2 bs ((before c q).drop r).length [] (passed Ts ((before c q).drop r))) := by
  obtain ⟨ps, h1, h2, h3⟩ := cut_from E h hi hl hr
  have := permOuter_sim E h Ts p p2 hi hl bs h2 rfl (Nat.le_refl _) hr
  rw [List.drop_eq_nil_of_le (show (c.abs.typedFlat.take r).length ≤ r by rw [List.length_take]; omega)] at this
  exact Sim.defd h1 this

end Algo
end PolyColl
