import Verif.Model.Results
import Verif.Lemmas.AlgoPart
import Verif.Lemmas.AlgoSearch
import Verif.Lemmas.AlgoPerm
import Verif.Lemmas.StdPerm
import Verif.Lemmas.StdMap
/-!
# Answers of predicates that are converted
-/

namespace PolyColl
open Prog

namespace StdAlg
variable {A B : Type} {m : Type → Type} [Monad m]

theorem partitionPoint_congr {p p' : A → m Bool} : ∀ (d : Nat) (l : List A), l.length = d → (∀ a ∈ l, p a = p' a) →
    partitionPoint p l = partitionPoint p' l := by
  intro d
  induction d using Nat.strongRecOn with
  | ind d ih =>
    intro l hd h
    cases hx : l[l.length / 2]? with
    | none => rw [partitionPoint_none hx, partitionPoint_none hx]
    | some a =>
      have hlt := (List.getElem?_eq_some_iff.1 hx).1
      rw [partitionPoint_some hx, partitionPoint_some hx, h a (List.mem_of_getElem? hx),
        ih _ (by rw [← hd, List.length_drop]; omega) _ rfl fun a ha => h a (List.mem_of_mem_drop ha),
        ih _ (by rw [← hd, List.length_take]; omega) _ rfl fun a ha => h a (List.mem_of_mem_take ha)]

theorem Permuted.congr {Q Q' : A → B → Bool} {l : List A} {bs : List B} (h : ∀ a ∈ l, Q a = Q' a) (hp : Permuted Q l bs) : Permuted Q' l bs := by
  obtain ⟨l', h1, h2⟩ := hp
  refine ⟨l', h1, ?_⟩
  have : ∀ a ∈ l', Q a = Q' a := fun a ha => h a (h1.mem_iff.1 ha)
  clear h1
  induction h2 with
  | nil => exact .nil
  | cons h1 _ ih => exact .cons (by rw [← this _ (List.mem_cons_self ..)]; exact h1) (ih fun a ha => this a (List.mem_cons_of_mem _ ha))

theorem permPart_congr {p p' : A → A → m Bool} {q q' : A → B → m Bool} (bs : List B) : ∀ (k : Nat) (pre l : List A),
    (∀ a ∈ l, p a = p' a ∧ q a = q' a) → permPart p q bs k pre l = permPart p' q' bs k pre l
  | 0, _, _, _ => by rw [permPart, permPart]
  | _ + 1, _, [], _ => by rw [permPart, permPart]
  | k + 1, pre, a :: l, h => by
    rw [permPart, permPart, (h a (List.mem_cons_self ..)).1, (h a (List.mem_cons_self ..)).2,
      permPart_congr bs k (pre ++ [a]) l fun x hx => h x (List.mem_cons_of_mem _ hx)]

end StdAlg

namespace Algo
variable {V : Type} {E : Env V} {m : Type → Type} [Monad m] [LawfulMonad m] {Y W B : Type}

/-- The element as it is given to functors for the types `Ts`. -/
def asListed (Ts : List Ty) (x : Passed V) : Passed V := ⟨x.ty, x.val, Ts.contains x.ty⟩

theorem test_eq {A : Answers Y W} {Ts : List Ty} {y : Y}
    (h : ∀ t ∈ Ts, ∀ a, ∃ b, A.returned (A.type none y) (A.type (some t) y) a = some b ∧
      A.truth (A.type none y).num b = A.truth (A.type (some t) y).num a) (ask : Passed V → Y → m W) (x : Passed V) :
    A.test ask Ts x y = call (A.plain ask (asListed Ts x) y) := by
  have key : ∀ Us : List Ty, (∀ t ∈ Us, t ∈ Ts) → (do return A.truth (A.type none y).num (← A.restituted ask x y Us) : OptionT m Bool) =
      call (A.plain ask (asListed Us x) y) := by
    intro Us
    induction Us with
    | nil =>
      intro _
      apply OptionT.ext
      simp [Answers.restituted, call, Answers.plain, asListed]
    | cons t ts ih =>
      intro hU
      by_cases ht : x.ty = t
      · have hc : asListed (t :: ts) x = ⟨x.ty, x.val, true⟩ := by simp [asListed, ht]
        rw [hc]
        rw [Answers.restituted, if_pos ht]
        apply OptionT.ext
        subst ht
        simp only [call, Answers.plain, defd, OptionT.run_bind, OptionT.run_mk, Option.elimM, bind_map_left, Option.elim_some, OptionT.run_pure, if_true,
          bind_assoc, pure_bind, map_bind, map_pure]
        refine bind_congr fun a => ?_
        obtain ⟨b, h1, h2⟩ := h _ (hU _ (List.mem_cons_self ..)) a
        rw [h1, Option.elim_some, h2]
      · have hc : asListed (t :: ts) x = asListed ts x := by simp [asListed, ht]
        rw [hc, Answers.restituted, if_neg ht]
        exact ih fun u hu => hU u (List.mem_cons_of_mem _ hu)
  exact key Ts fun _ h => h

/-- The case of `Option`. -/
theorem Sim.option {α β : Type} {R : α → β → Prop} {x : OptionT (OptionT Id) α} {b : β} (h : Sim (m := OptionT Id) R x (Pure.pure b)) :
    ∃ a, x.run.run = some (some a) ∧ R a b := by
  obtain ⟨z, h1, h2⟩ := h
  have h2 : some b = Option.map (fun p => p.1.2) z.run := by
    have := congrArg OptionT.run h2
    exact this
  cases hz : z.run with
  | none => rw [hz] at h2; cases h2
  | some p =>
    rw [hz] at h2
    have h2 : b = p.1.2 := by injection h2
    refine ⟨p.1.1, ?_, ?_⟩
    · rw [h1]
      show Option.map _ z.run = _
      rw [hz]; rfl
    · rw [h2]; exact p.2

theorem runs_bind {α β : Type} {x : OptionT (OptionT Id) α} {f : α → OptionT (OptionT Id) β} {a : α} (h : x.run.run = some (some a)) :
    (x >>= f).run.run = (f a).run.run := by
  have : x.run = Pure.pure (some a) := OptionT.ext h
  rw [OptionT.run_bind, this]
  rfl

theorem runs_defd {α β : Type} {o : Option α} {f : α → OptionT (OptionT Id) β} {a : α} (h : o = some a) : (defd o >>= f).run.run = (f a).run.run := by
  subst h
  rfl

theorem asListed_passed (Ts : List Ty) {l : List (Ty × V)} {x : Passed V} (h : x ∈ passed Ts l) : asListed Ts x = x := by
  obtain ⟨y, _, rfl⟩ := List.mem_map.1 h
  rfl

section
variable {E : Env V}
open Coll

/-- The second part of `is_permutation`, when the predicates given agree with `P` and `Q` where they are called. -/
theorem permSuffix_option {c : Coll V} {w : World} (h : c.Inv E w) (Ts : List Ty) {P : Passed V → Passed V → Bool} {Q : Passed V → B → Bool}
    (hpq : StdAlg.Matching P Q) {p : Passed V → Passed V → OptionT Id Bool} {p2 : Passed V → B → OptionT Id Bool}
    (hp : ∀ x, p (asListed Ts x) = fun y => Pure.pure (P (asListed Ts x) y)) (hp2 : ∀ x, p2 (asListed Ts x) = fun y => Pure.pure (Q (asListed Ts x) y))
    {it last : GIter} {r : Nat} {q : Spec.State.Pos} (hi : AtRank E c it r) (hl : c.At E last q)
    (hr : r ≤ c.abs.rank q) (bs : List B) (hb : c.abs.rank q - r = bs.length) :
    ∃ b, (permSuffix E c Ts it last bs p p2).run.run = some (some b) ∧ (b = true ↔ StdAlg.Permuted Q (passed Ts ((before c q).drop r)) bs) := by
  have hlen := before_length E h.map hl
  have hs := permSuffix_sim E h Ts p p2 hi hl hr bs
  obtain ⟨b, g1, g2⟩ := StdAlg.permPart_permuted (m := OptionT Id) hpq (passed Ts ((before c q).drop r)) bs
    (by rw [passed_length, List.length_drop, hlen]; exact hb)
  rw [passed_length, ← StdAlg.permPart_congr (p := p) (q := p2) _ _ _ _ fun a ha => by
    have := asListed_passed Ts ha
    have h1 := hp a
    have h2 := hp2 a
    rw [this] at h1 h2
    exact ⟨h1, h2⟩] at g1
  rw [g1] at hs
  obtain ⟨a, k1, k2⟩ := hs.option
  exact ⟨a, k1, by rw [k2]; exact g2⟩

theorem isPermutation4By_option {c : Coll V} {w : World} (h : c.Inv E w) (Ts : List Ty) {P : Passed V → Passed V → Bool} {Q : Passed V → B → Bool}
    (hpq : StdAlg.Matching P Q) {p : Passed V → Passed V → OptionT Id Bool} {p2 : Passed V → B → OptionT Id Bool}
    (hp : ∀ x, p (asListed Ts x) = fun y => Pure.pure (P (asListed Ts x) y)) (hp2 : ∀ x, p2 (asListed Ts x) = fun y => Pure.pure (Q (asListed Ts x) y))
    {it last : GIter} {r : Nat} {q : Spec.State.Pos} (hi : AtRank E c it r) (hl : c.At E last q)
    (hr : r ≤ c.abs.rank q) (bs : List B) :
    ∃ b, (do let r ← mismatch4 E c Ts it last bs fun x y => (Pure.pure (Q x y) : OptionT Id Bool)
             let d ← defd (fastDistance E c r.1 last)
             if d ≠ r.2.length then Pure.pure false else permSuffix E c Ts r.1 last r.2 p p2 : OptionT (OptionT Id) Bool).run.run = some (some b) ∧
      (b = true ↔ StdAlg.Permuted Q (passed Ts ((before c q).drop r)) bs) := by
  obtain ⟨n, h1, h2, h3, h4, h5⟩ := StdAlg.mismatch_pure (m := OptionT Id) Q (passed Ts ((before c q).drop r)) bs
  have hlen := before_length E h.map hl
  have hm := mismatch4_from (m := OptionT Id) E h Ts (fun x y => Pure.pure (Q x y)) hi hl hr bs
  rw [h1] at hm
  obtain ⟨x, k1, k2, k3, -⟩ := hm.option
  have hdrop : (passed Ts ((before c q).drop r)).drop n = passed Ts ((before c q).drop (r + n)) := by
    simp [passed, List.map_drop, List.drop_drop]
  have hsplit : StdAlg.Permuted Q (passed Ts ((before c q).drop r)) bs ↔ StdAlg.Permuted Q (passed Ts ((before c q).drop (r + n))) (bs.drop n) := by
    have := StdAlg.permuted_suffix hpq (l' := (passed Ts ((before c q).drop r)).drop n) (bs' := bs.drop n) h4
    rw [List.take_append_drop, List.take_append_drop, hdrop] at this
    exact this
  rw [passed_length, List.length_drop, hlen] at h2
  obtain ⟨pos, hpos, hrk⟩ := id k2
  have hdist : fastDistance E c x.1 last = some (c.abs.rank q - (r + n)) := by
    rw [fastDistance_eq E h hpos hl (by omega), hrk]
  simp only at k3
  rw [runs_bind k1, runs_defd hdist, hsplit, k3]
  by_cases hd : c.abs.rank q - (r + n) = (bs.drop n).length
  · rw [if_neg (by simpa using hd)]
    exact permSuffix_option h Ts hpq hp hp2 k2 hl (by omega) _ hd
  · rw [if_pos hd]
    refine ⟨false, rfl, by simp, fun ⟨l', g1, g2⟩ => absurd ?_ hd⟩
    rw [← g2.length_eq, g1.length_eq, passed_length, List.length_drop, hlen]

theorem isPermutation3By_option {c : Coll V} {w : World} (h : c.Inv E w) (Ts : List Ty) {P : Passed V → Passed V → Bool} {Q : Passed V → B → Bool}
    (hpq : StdAlg.Matching P Q) {p : Passed V → Passed V → OptionT Id Bool} {p2 : Passed V → B → OptionT Id Bool}
    (hp : ∀ x, p (asListed Ts x) = fun y => Pure.pure (P (asListed Ts x) y)) (hp2 : ∀ x, p2 (asListed Ts x) = fun y => Pure.pure (Q (asListed Ts x) y))
    {it last : GIter} {r : Nat} {q : Spec.State.Pos} (hi : AtRank E c it r) (hl : c.At E last q)
    (hr : r ≤ c.abs.rank q) (bs : List B) (hb : c.abs.rank q - r ≤ bs.length) :
    ∃ b, (do let r ← mismatch3 E c Ts it last bs fun x y => (Pure.pure (Q x y) : OptionT Id Bool)
             let d ← defd (fastDistance E c r.1 last)
             let bs' ← defd (if d ≤ r.2.length then some (r.2.take d) else none)
             permSuffix E c Ts r.1 last bs' p p2 : OptionT (OptionT Id) Bool).run.run = some (some b) ∧
      (b = true ↔ StdAlg.Permuted Q (passed Ts ((before c q).drop r)) (bs.take (c.abs.rank q - r))) := by
  obtain ⟨n, h1, h2, h3, h4, h5⟩ := StdAlg.mismatch_pure (m := OptionT Id) Q (passed Ts ((before c q).drop r)) bs
  have hlen := before_length E h.map hl
  have hm := mismatch3_from (m := OptionT Id) E h Ts (fun x y => Pure.pure (Q x y)) hi hl hr bs hb
  rw [h1] at hm
  obtain ⟨x, k1, k2, k3, -⟩ := hm.option
  have hdrop : (passed Ts ((before c q).drop r)).drop n = passed Ts ((before c q).drop (r + n)) := by
    simp [passed, List.map_drop, List.drop_drop]
  rw [passed_length, List.length_drop, hlen] at h2
  have hbt : bs.take (c.abs.rank q - r) = bs.take n ++ (bs.drop n).take (c.abs.rank q - (r + n)) := by
    rw [show c.abs.rank q - r = n + (c.abs.rank q - (r + n)) by omega, List.take_add]
  have hsplit : StdAlg.Permuted Q (passed Ts ((before c q).drop r)) (bs.take (c.abs.rank q - r)) ↔
      StdAlg.Permuted Q (passed Ts ((before c q).drop (r + n))) ((bs.drop n).take (c.abs.rank q - (r + n))) := by
    have := StdAlg.permuted_suffix hpq (l' := (passed Ts ((before c q).drop r)).drop n) (bs' := (bs.drop n).take (c.abs.rank q - (r + n))) h4
    rw [List.take_append_drop, ← hbt, hdrop] at this
    exact this
  obtain ⟨pos, hpos, hrk⟩ := id k2
  have hdist : fastDistance E c x.1 last = some (c.abs.rank q - (r + n)) := by
    rw [fastDistance_eq E h hpos hl (by omega), hrk]
  simp only at k3
  have hle : c.abs.rank q - (r + n) ≤ (bs.drop n).length := by rw [List.length_drop]; omega
  rw [runs_bind k1, runs_defd hdist, hsplit, k3, if_pos hle]
  rw [runs_defd rfl]
  exact permSuffix_option h Ts hpq hp hp2 k2 hl (by omega) _ (by rw [List.length_take]; omega)

end
end Algo
end PolyColl
