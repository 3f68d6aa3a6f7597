import Verif.Lemmas.AlgoCut
import Verif.Lemmas.AlgoUnique
/-!
# What unique_copy calls its predicate with
-/

namespace PolyColl
namespace StdAlg
variable {m : Type → Type} [Monad m] {A O : Type}

theorem uniqueCopyFrom_agree {out : O → A → m O} {p p' : A → A → m Bool} (a : A) (l : List A)
    (h : ∀ x ∈ a :: l, ∀ y ∈ l, p x y = p' x y) (o : O) : uniqueCopyFrom out p a l o = uniqueCopyFrom out p' a l o := by
  induction l generalizing a o with
  | nil => rfl
  | cons b l ih =>
    have h1 := ih a (fun x hx y hy => h x (by simp only [List.mem_cons] at hx ⊢; rcases hx with hx | hx <;> simp [hx]) y (by simp [hy]))
    have h2 := ih b (fun x hx y hy => h x (List.mem_cons_of_mem _ hx) y (by simp [hy]))
    simp only [uniqueCopyFrom, h a (by simp) b (by simp), h1, h2]

theorem uniqueCopy_agree {out : O → A → m O} {p p' : A → A → m Bool} (l : List A) (h : ∀ x ∈ l, ∀ y ∈ l, p x y = p' x y) (o : O) :
    uniqueCopy out p l o = uniqueCopy out p' l o := by
  cases l with
  | nil => rfl
  | cons a l =>
    have := uniqueCopyFrom_agree (out := out) a l fun x hx y hy => h x hx y (List.mem_cons_of_mem _ hy)
    simp only [uniqueCopy, this]

end StdAlg

namespace Algo
open Coll
variable {V : Type} (E : Env V) {m : Type → Type} [Monad m] [LawfulMonad m] {O : Type}

omit [LawfulMonad m] in
theorem skipEqual_agree {p p' : Passed V → m Bool} (l : List (Passed V)) (h : ∀ y ∈ l, p y = p' y) : skipEqual p l = skipEqual p' l := by
  induction l with
  | nil => rfl
  | cons a l ih => simp only [skipEqual, h a (by simp), ih fun y hy => h y (List.mem_cons_of_mem _ hy)]

theorem skipEqual_sub (p : Passed V → m Bool) (l : List (Passed V)) : Results (fun l' => ∀ x ∈ l', x ∈ l) (skipEqual p l) := by
  induction l with
  | nil => exact Results.pure fun x hx => hx
  | cons a l ih =>
    unfold skipEqual
    refine Results.anyBind fun b => Results.ite (fun _ => ?_) fun _ => Results.pure fun x hx => hx
    exact ih.mono fun l' hl x hx => List.mem_cons_of_mem _ (hl x hx)

/-- With no type given, elements are passed as a `value_type&`. -/
theorem derefAs_none {c : Coll V} {Ts : List Ty} {l : LIter} {x : Passed V} (h : derefAs E c Ts none l = some x) : x.typed = false := by
  unfold derefAs rangeN at h
  have hr : ∀ Ts, restitute E Ts none = none := by
    intro Ts
    induction Ts with
    | nil => rfl
    | cons T Ts ih => exact ih
  rw [hr] at h
  cases hn : c.map.node? E l.mapit with
  | none => simp [hn] at h
  | some s =>
    simp only [hn] at h
    cases hw : walkN s.seg.be.derefBase l.pos 1 with
    | none => simp [hw] at h
    | some vs =>
      simp only [hw, Option.map_some, List.head?_map, Option.map_eq_some_iff] at h
      obtain ⟨v, -, rfl⟩ := h
      rfl

/-- Two predicates that agree on the pairs of arguments they are called with. -/
def Agree (Ts : List Ty) (p p' : Passed V → Passed V → m Bool) : Prop :=
  ∀ x y : Passed V, y.typed = Ts.contains y.ty → (x.typed = false ∨ (x.ty = y.ty ∧ x.typed = Ts.contains x.ty)) → p x y = p' x y

theorem run_callBind {α β : Type} (x : m α) (f : α → OptionT m β) : (call x >>= f).run = x >>= fun a => (f a).run := by
  rw [OptionT.run_bind]
  show Option.elimM (some <$> x) _ _ = _
  simp only [Option.elimM, bind_map_left, Option.elim_some]

theorem callBind_congr {α β : Type} {P : α → Prop} {x : m α} (h : Results P x) {f g : α → OptionT m β} (hfg : ∀ a, P a → f a = g a) :
    (call x >>= f) = (call x >>= g) := by
  obtain ⟨z, rfl⟩ := h
  refine OptionT.ext ?_
  rw [run_callBind, run_callBind, bind_map_left, bind_map_left]
  exact bind_congr fun a => by rw [hfg a.1 a.2]

theorem defd_bind_congr {α β : Type} {o : Option α} {f g : α → OptionT m β} (h : ∀ a, o = some a → f a = g a) : (defd o >>= f) = (defd o >>= g) := by
  cases o with
  | none =>
    refine OptionT.ext ?_
    rw [OptionT.run_bind, OptionT.run_bind]
    show Option.elimM (pure none) _ _ = Option.elimM (pure none) _ _
    simp only [Option.elimM, pure_bind, Option.elim_none]
  | some a => rw [defd_some, pure_bind, pure_bind]; exact h a rfl

theorem uniqueCopyAlg_agree {c : Coll V} {Ts : List Ty} {out : O → Passed V → m O} {p p' : Passed V → Passed V → m Bool} (hp : Agree Ts p p')
    {r : LRange V} {t : Ty} (hr : ∀ x ∈ r.vals, x.ty = t ∧ x.typed = Ts.contains x.ty) (o : O) (s : Bool × Option LIter) :
    uniqueCopyAlg E c Ts out p none r o s = uniqueCopyAlg E c Ts out p' none r o s := by
  have hin : ∀ l : List (Passed V), (∀ x ∈ l, x ∈ r.vals) → ∀ o, StdAlg.uniqueCopy out p l o = StdAlg.uniqueCopy out p' l o := fun l hl o =>
    StdAlg.uniqueCopy_agree l (fun x hx y hy => hp x y (hr y (hl y hy)).2 (Or.inr ⟨(hr x (hl x hx)).1.trans (hr y (hl y hy)).1.symm, (hr x (hl x hx)).2⟩)) o
  have hrest : ∀ l : List (Passed V), (∀ x ∈ l, x ∈ r.vals) →
      (match l with
        | [] => pure (o, s)
        | a :: l => do
          let o ← call (StdAlg.uniqueCopy out p (a :: l) o)
          let prev ← defd (r.at E c (r.vals.length - 1))
          return (o, true, some prev) : OptionT m (O × Bool × Option LIter)) =
      (match l with
        | [] => pure (o, s)
        | a :: l => do
          let o ← call (StdAlg.uniqueCopy out p' (a :: l) o)
          let prev ← defd (r.at E c (r.vals.length - 1))
          return (o, true, some prev)) := by
    intro l hl
    cases l with
    | nil => rfl
    | cons a l => simp only [hin (a :: l) hl]
  unfold uniqueCopyAlg
  obtain ⟨b, s2⟩ := s
  cases b with
  | false =>
    simp only [Bool.false_eq_true, if_false, pure_bind]
    exact hrest _ fun x hx => hx
  | true =>
    simp only [if_true]
    cases hv : r.vals with
    | nil => simp only [pure_bind]
    | cons a l =>
      simp only [bind_assoc]
      refine defd_bind_congr fun prev _ => defd_bind_congr fun x hx => ?_
      have hty := derefAs_none E hx
      have hsk : skipEqual (p x) (a :: l) = skipEqual (p' x) (a :: l) :=
        skipEqual_agree _ fun y hy => hp x y (hr y (hv ▸ hy)).2 (Or.inl hty)
      rw [hsk]
      refine callBind_congr (skipEqual_sub (p' x) (a :: l)) fun l' hl' => ?_
      have := hrest l' fun x hx => hv ▸ hl' x hx
      rw [hv] at this
      exact this

theorem uniqueCopyIn_agree {c : Coll V} {w : World} (h : c.Core E w) {Ts : List Ty} {out : O → Passed V → m O} {p p' : Passed V → Passed V → m Bool}
    (hp : Agree Ts p p') {f : Bool} {ps : List SegInfo} {r : Nat} {l : List (Ty × V)} (hc : Cut E c f ps r l) :
    ∀ (o : O) (s : Bool × Option LIter), uniqueCopyIn E c Ts out p ps o s = uniqueCopyIn E c Ts out p' ps o s := by
  induction hc with
  | nil => intro o s; rfl
  | @cons f i is n a b r l hpc hr hz hc ih =>
    intro o s
    obtain ⟨rg, h3, -, h4, -⟩ := hpc.rangeP E h Ts
    have hv : ∀ x ∈ rg.vals, x.ty = n.seg.ty ∧ x.typed = Ts.contains x.ty := by
      intro x hx
      rw [h4, passed, List.mem_map] at hx
      obtain ⟨y, hy, rfl⟩ := hx
      exact ⟨sliceOf_ty hy, rfl⟩
    simp only [uniqueCopyIn, h3, defd_some, pure_bind, uniqueCopyAlg_agree E hp hv, ih]

end Algo
end PolyColl
