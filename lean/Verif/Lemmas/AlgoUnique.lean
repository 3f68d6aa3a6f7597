import Verif.Lemmas.AlgoAdjacent
import Verif.Spec.Ranges
/-!
# unique_copy

For a predicate without effects that is an equivalence, as the standard requires, it does not
matter with which of several equivalent elements the next one is compared.
-/

namespace PolyColl
namespace StdAlg
variable {m : Type → Type} [Monad m] [LawfulMonad m] {A O : Type}

theorem Sameness.congr {P : A → A → Bool} (h : Sameness P) {a b : A} (hab : P a b = true) (c : A) : P a c = P b c := by
  apply Bool.eq_iff_iff.2
  exact ⟨fun g => h.trans _ _ _ (h.symm _ _ hab) g, fun g => h.trans _ _ _ hab g⟩

theorem uniqueCopyFrom_cons (out : O → A → m O) (P : A → A → Bool) (a b : A) (l : List A) (o : O) :
    uniqueCopyFrom out (fun x y => pure (P x y)) a (b :: l) o =
      if P a b then uniqueCopyFrom out (fun x y => pure (P x y)) a l o else out o b >>= uniqueCopyFrom out (fun x y => pure (P x y)) b l := by
  simp [uniqueCopyFrom]

theorem uniqueCopyFrom_congr (out : O → A → m O) {P : A → A → Bool} (h : Sameness P) {a b : A} (hab : P a b = true) (l : List A) (o : O) :
    uniqueCopyFrom out (fun x y => pure (P x y)) a l o = uniqueCopyFrom out (fun x y => pure (P x y)) b l o := by
  induction l with
  | nil => rfl
  | cons c l ih => rw [uniqueCopyFrom_cons, uniqueCopyFrom_cons, h.congr hab, ih]

/-- The last element of `a :: l`. -/
def lastFrom (a : A) : List A → A
  | [] => a
  | b :: l => lastFrom b l

omit [Monad m] [LawfulMonad m] in
theorem lastFrom_append (a : A) (l : List A) (z : A) : lastFrom a (l ++ [z]) = z := by
  induction l generalizing a with
  | nil => rfl
  | cons b l ih => exact ih b

theorem uniqueCopyFrom_append (out : O → A → m O) {P : A → A → Bool} (h : Sameness P) (a : A) (k l : List A) (o : O) :
    uniqueCopyFrom out (fun x y => pure (P x y)) a (k ++ l) o =
      uniqueCopyFrom out (fun x y => pure (P x y)) a k o >>= uniqueCopyFrom out (fun x y => pure (P x y)) (lastFrom a k) l := by
  induction k generalizing a o with
  | nil => simp [uniqueCopyFrom, lastFrom]
  | cons b k ih =>
    rw [List.cons_append, uniqueCopyFrom_cons, uniqueCopyFrom_cons]
    by_cases hp : P a b = true
    · rw [if_pos hp, if_pos hp, uniqueCopyFrom_congr out h hp, uniqueCopyFrom_congr out h hp, ih]
      rfl
    · rw [if_neg hp, if_neg hp, bind_assoc]
      exact bind_congr fun o' => ih b o'

theorem uniqueCopy_append (out : O → A → m O) {P : A → A → Bool} (h : Sameness P) (a : A) (k l : List A) (o : O) :
    uniqueCopy out (fun x y => pure (P x y)) (a :: (k ++ l)) o =
      uniqueCopy out (fun x y => pure (P x y)) (a :: k) o >>= uniqueCopyFrom out (fun x y => pure (P x y)) (lastFrom a k) l := by
  simp only [uniqueCopy, bind_assoc]
  exact bind_congr fun o' => uniqueCopyFrom_append out h a k l o'

/-- The elements equivalent to the last one written are skipped. -/
theorem uniqueCopyFrom_skip (out : O → A → m O) (P : A → A → Bool) (a : A) (l : List A) (o : O) :
    uniqueCopyFrom out (fun x y => pure (P x y)) a l o = uniqueCopy out (fun x y => pure (P x y)) (l.dropWhile (P a)) o := by
  induction l with
  | nil => rfl
  | cons b l ih =>
    rw [uniqueCopyFrom_cons, List.dropWhile_cons]
    by_cases hp : P a b = true
    · rw [if_pos hp, if_pos hp, ih]
    · rw [if_neg hp, if_neg hp]; rfl

omit [Monad m] [LawfulMonad m] in
theorem lastFrom_same (P : A → A → Bool) (a : A) (l : List A) (hl : l.dropWhile (P a) = []) (hne : l ≠ []) :
    P a (lastFrom a l) = true := by
  have hall : ∀ x ∈ l, P a x = true := by
    intro x hx
    induction l with
    | nil => cases hx
    | cons b l ih =>
      rw [List.dropWhile_cons] at hl
      by_cases hp : P a b = true
      · rw [if_pos hp] at hl
        rcases List.mem_cons.1 hx with rfl | hx
        · exact hp
        · exact ih hl (fun e => by rw [e] at hx; cases hx) hx
      · rw [if_neg hp] at hl; cases hl
  have : lastFrom a l ∈ l := by
    cases l with
    | nil => exact absurd rfl hne
    | cons b l =>
      clear hl hne hall
      induction l generalizing b with
      | nil => simp [lastFrom]
      | cons d l ih => exact List.mem_cons_of_mem _ (ih d)
  exact hall _ this

theorem uniqueCopyFrom_heads {P : A → A → Bool} (h : Sameness P) (a : A) (l : List A) (o : List A) :
    uniqueCopyFrom (m := m) (fun o x => pure (o ++ [x])) (fun x y => pure (P x y)) a l o = pure (o ++ headsFrom P a l) := by
  induction l generalizing a o with
  | nil => simp [uniqueCopyFrom, headsFrom]
  | cons b l ih =>
    rw [uniqueCopyFrom_cons, headsFrom]
    by_cases hab : P a b = true
    · rw [if_pos hab, if_pos hab, uniqueCopyFrom_congr _ h hab, ih]
    · rw [if_neg hab, if_neg hab, pure_bind, ih, List.append_assoc, List.singleton_append]

theorem uniqueCopy_heads {P : A → A → Bool} (h : Sameness P) (l : List A) (o : List A) :
    uniqueCopy (m := m) (fun o x => pure (o ++ [x])) (fun x y => pure (P x y)) l o = pure (o ++ heads P l) := by
  cases l with
  | nil => simp [uniqueCopy, heads]
  | cons a l => rw [uniqueCopy, heads, pure_bind, uniqueCopyFrom_heads h, List.append_assoc, List.singleton_append]

end StdAlg

open Prog
namespace Algo
variable {V : Type} (E : Env V) {m : Type → Type} [Monad m] [LawfulMonad m] {O : Type}
open Coll

theorem skipEqual_pure (P : Passed V → Bool) (l : List (Passed V)) :
    skipEqual (m := m) (fun a => pure (P a)) l = pure (l.dropWhile P) := by
  induction l with
  | nil => rfl
  | cons a l ih =>
    rw [skipEqual, List.dropWhile_cons, pure_bind, ih]
    split <;> rfl

/-- An iterator to the element `z`. -/
def Holds (c : Coll V) (lp : Option LIter) (z : Ty × V) : Prop :=
  ∃ l n j, lp = some l ∧ c.map.Use E l.mapit n ∧ l.pos = n.seg.base j ∧ n.seg.elems[j]? = some z.2 ∧ n.seg.ty = z.1

theorem uniqueCopyIn_sim {c : Coll V} {w : World} (h : c.Core E w) (Ts : List Ty) (out : O → Passed V → m O) {P : Passed V → Passed V → Bool}
    (hP : StdAlg.Sameness P) (hU : ∀ x y : Ty × V, P ⟨x.1, x.2, false⟩ (Passed.of Ts y) = P (Passed.of Ts x) (Passed.of Ts y))
    {f : Bool} {ps : List SegInfo} {r : Nat} {l : List (Ty × V)} (hc : Cut E c f ps r l) :
    (∀ o s, Sim Eq (uniqueCopyIn E c Ts out (fun x y => pure (P x y)) ps o (false, s))
      (StdAlg.uniqueCopy out (fun x y => pure (P x y)) (passed Ts l) o)) ∧
    (∀ o s z, Holds E c s z → Sim Eq (uniqueCopyIn E c Ts out (fun x y => pure (P x y)) ps o (true, s))
      (StdAlg.uniqueCopyFrom out (fun x y => pure (P x y)) (Passed.of Ts z) (passed Ts l) o)) := by
  induction hc with
  | nil => exact ⟨fun o s => Sim.pure rfl, fun o s z _ => Sim.pure rfl⟩
  | @cons f i is n a b r l hp hrk hz hc ih =>
    obtain ⟨ih1, ih2⟩ := ih
    have hle := hp.le
    have hle' := hp.le'
    obtain ⟨rg, h1, h2, h3, h4⟩ := hp.rangeP E h Ts
    have hlen := sliceP_length (Ts := Ts) E hp
    rw [← h3] at hlen
    by_cases hab : a < b
    · obtain ⟨k, v, hk1, hk2, hk3⟩ := sliceOf_last hab hle'
      have hprev : Holds E c (some ⟨rg.mapit, n.seg.base (a + (rg.vals.length - 1))⟩) (n.seg.ty, v) := by
        refine ⟨_, n, b - 1, rfl, by rw [h4]; exact hp.use, ?_, hk3, rfl⟩
        show n.seg.base _ = _
        rw [hlen, show a + (b - a - 1) = b - 1 by omega]
      have hlast : ∀ x xs, x :: xs = rg.vals → StdAlg.lastFrom x xs = Passed.of Ts (n.seg.ty, v) := by
        intro x xs e
        rw [h3, hk1, passed_append] at e
        cases k with
        | nil => cases e; rfl
        | cons y k =>
          simp only [passed, List.map_cons, List.cons_append, List.map_nil] at e
          cases e
          exact StdAlg.lastFrom_append _ _ _
      have hlast' : ∀ x, StdAlg.lastFrom x rg.vals = Passed.of Ts (n.seg.ty, v) := by
        intro x
        rw [h3, hk1, passed_append]
        exact StdAlg.lastFrom_append _ _ _
      have hat := h2.at E h (k := rg.vals.length - 1) (by omega)
      cases hv : rg.vals with
      | nil => rw [hv] at hlen; simp only [List.length_nil] at hlen; omega
      | cons x xs =>
        refine ⟨fun o s => ?_, fun o s z hs => ?_⟩
        · rw [passed_append, ← h3, hv, List.cons_append, StdAlg.uniqueCopy_append out hP, hlast x xs hv.symm, uniqueCopyIn]
          refine Sim.defd h1 ?_
          simp only [uniqueCopyAlg, Bool.false_eq_true, if_false, pure_bind]
          rw [hv] at hat hprev ⊢
          simp only [bind_assoc]
          refine Sim.callBind fun o' => Sim.defd hat ?_
          simp only [pure_bind]
          exact ih2 o' _ _ hprev
        · rw [passed_append, ← h3, StdAlg.uniqueCopyFrom_append out hP, hlast', uniqueCopyIn]
          refine Sim.defd h1 ?_
          obtain ⟨l0, n0, j, e1, e2, e3, e4, e5⟩ := id hs
          have hz' : derefAs E c Ts none l0 = some ⟨z.1, z.2, false⟩ := by rw [derefAs_void E h Ts e2 e3 e4, e5]
          have hdw : rg.vals.dropWhile (P ⟨z.1, z.2, false⟩) = rg.vals.dropWhile (P (Passed.of Ts z)) := by
            rw [h3]
            generalize sliceOf n.seg a (b - a) = ys
            induction ys with
            | nil => rfl
            | cons y ys ih => simp only [passed, List.map_cons, List.dropWhile_cons, hU] at ih ⊢; rw [ih]
          rw [uniqueCopyAlg]
          simp only [if_true, bind_assoc]
          rw [hv]
          simp only [bind_assoc, e1]
          rw [defd_some, pure_bind, hz', defd_some, pure_bind, skipEqual_pure]
          rw [← hv, hdw]
          have hcp : ∀ (α β : Type) (a : α) (g : α → OptionT m β), (call (pure a) >>= g : OptionT m β) = g a := by
            intro α β a g
            apply OptionT.ext
            simp [call]
          rw [hcp, StdAlg.uniqueCopyFrom_skip]
          cases hd : rg.vals.dropWhile (P (Passed.of Ts z)) with
          | nil =>
            simp only [StdAlg.uniqueCopy, pure_bind]
            have hsame := StdAlg.lastFrom_same P (Passed.of Ts z) rg.vals hd (by rw [hv]; simp)
            rw [hlast'] at hsame
            rw [← StdAlg.uniqueCopyFrom_congr out hP hsame, ← e1]
            exact ih2 o s z hs
          | cons y ys =>
            simp only [bind_assoc]
            refine Sim.callBind fun o' => Sim.defd hat ?_
            simp only [pure_bind]
            exact ih2 o' _ _ hprev
    · have hv : rg.vals = [] := List.length_eq_zero_iff.1 (by omega)
      have hstep : ∀ o (s : Bool × Option LIter), uniqueCopyIn E c Ts out (fun x y => pure (P x y)) (i :: is) o s =
          uniqueCopyIn E c Ts out (fun x y => pure (P x y)) is o s := by
        intro o s
        rw [uniqueCopyIn, h1, defd_some, pure_bind, uniqueCopyAlg]
        simp only [hv, ite_self, pure_bind]
      rw [passed_append, ← h3, hv, List.nil_append]
      simp only [hstep]
      exact ⟨ih1, ih2⟩

end Algo
end PolyColl
