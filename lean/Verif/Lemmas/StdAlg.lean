import Verif.Spec.Std
/-! # The algorithms of the standard library on a range made of two -/

namespace PolyColl
namespace StdAlg
variable {m : Type → Type} [Monad m] [LawfulMonad m] {A B O W : Type}

theorem allOf_append (p : A → m Bool) (l l' : List A) : allOf p (l ++ l') = (allOf p l >>= fun b => if b then allOf p l' else pure false) := by
  induction l with
  | nil => simp [allOf]
  | cons a l ih =>
    simp only [List.cons_append, allOf, ih, bind_assoc]
    refine bind_congr fun b => ?_
    cases b <;> simp

theorem anyOf_append (p : A → m Bool) (l l' : List A) : anyOf p (l ++ l') = (anyOf p l >>= fun b => if b then pure true else anyOf p l') := by
  induction l with
  | nil => simp [anyOf]
  | cons a l ih =>
    simp only [List.cons_append, anyOf, ih, bind_assoc]
    refine bind_congr fun b => ?_
    cases b <;> simp

theorem noneOf_append (p : A → m Bool) (l l' : List A) : noneOf p (l ++ l') = (noneOf p l >>= fun b => if b then noneOf p l' else pure false) := by
  induction l with
  | nil => simp [noneOf]
  | cons a l ih =>
    simp only [List.cons_append, noneOf, ih, bind_assoc]
    refine bind_congr fun b => ?_
    cases b <;> simp

theorem forEach_append {F : Type} (f : F → A → m F) (l l' : List A) (s : F) : forEach f (l ++ l') s = forEach f l s >>= forEach f l' := by
  induction l generalizing s with
  | nil => simp [forEach]
  | cons a l ih => simp only [List.cons_append, forEach, ih, bind_assoc]

theorem findIf_append (p : A → m Bool) (l l' : List A) :
    findIf p (l ++ l') = findIf p l >>= fun n => if n = l.length then (fun k => k + l.length) <$> findIf p l' else pure n := by
  induction l with
  | nil => simp [findIf]
  | cons a l ih =>
    simp only [List.cons_append, findIf, ih, bind_assoc]
    refine bind_congr fun b => ?_
    cases b
    · simp only [Bool.false_eq_true, if_false, bind_assoc, pure_bind, List.length_cons, Nat.add_right_cancel_iff]
      refine bind_congr fun n => ?_
      split
      · simp [Nat.add_assoc]
      · simp
    · simp

theorem findIfNot_append (p : A → m Bool) (l l' : List A) :
    findIfNot p (l ++ l') = findIfNot p l >>= fun n => if n = l.length then (fun k => k + l.length) <$> findIfNot p l' else pure n := by
  induction l with
  | nil => simp [findIfNot]
  | cons a l ih =>
    simp only [List.cons_append, findIfNot, ih, bind_assoc]
    refine bind_congr fun b => ?_
    cases b
    · simp
    · simp only [if_true, bind_assoc, pure_bind, List.length_cons, Nat.add_right_cancel_iff]
      refine bind_congr fun n => ?_
      split
      · simp [Nat.add_assoc]
      · simp

theorem countIf_append (p : A → m Bool) (l l' : List A) :
    countIf p (l ++ l') = countIf p l >>= fun n => (fun k => n + k) <$> countIf p l' := by
  induction l with
  | nil => simp [countIf]
  | cons a l ih =>
    simp only [List.cons_append, countIf, ih, bind_assoc]
    refine bind_congr fun b => ?_
    cases b
    · simp
    · simp [Nat.add_right_comm]

theorem mismatch_append (p : A → B → m Bool) (l l' : List A) (bs : List B) :
    mismatch p (l ++ l') bs = mismatch p l bs >>= fun n =>
      if n.1 = l.length then (fun k => (k.1 + l.length, k.2)) <$> mismatch p l' n.2 else pure n := by
  induction l generalizing bs with
  | nil => simp [mismatch]
  | cons a l ih =>
    cases bs with
    | nil => simp [mismatch]
    | cons b bs =>
      simp only [List.cons_append, mismatch, ih, bind_assoc]
      refine bind_congr fun b => ?_
      cases b
      · simp
      · simp only [if_true, bind_assoc, pure_bind, List.length_cons, Nat.add_right_cancel_iff]
        refine bind_congr fun n => ?_
        split
        · simp [Nat.add_assoc]
        · simp

/-- `std::equal` in two steps. -/
def equalPart (p : A → B → m Bool) : List A → List B → m (Bool × List B)
  | [], bs => pure (true, bs)
  | _ :: _, [] => pure (false, [])
  | a :: l, b :: bs => do if ← p a b then equalPart p l bs else pure (false, b :: bs)

theorem equal_append (p : A → B → m Bool) (l l' : List A) (bs : List B) :
    equal p (l ++ l') bs = equalPart p l bs >>= fun r => if r.1 then equal p l' r.2 else pure false := by
  induction l generalizing bs with
  | nil => simp [equalPart]
  | cons a l ih =>
    cases bs with
    | nil => simp [equal, equalPart]
    | cons b bs =>
      simp only [List.cons_append, equal, equalPart, ih, bind_assoc]
      refine bind_congr fun b => ?_
      cases b <;> simp

theorem copy_append (out : O → A → m O) (l l' : List A) (o : O) : copy out (l ++ l') o = copy out l o >>= copy out l' := by
  induction l generalizing o with
  | nil => simp [copy]
  | cons a l ih => simp only [List.cons_append, copy, ih, bind_assoc]

theorem copyIf_append (out : O → A → m O) (p : A → m Bool) (l l' : List A) (o : O) :
    copyIf out p (l ++ l') o = copyIf out p l o >>= copyIf out p l' := by
  induction l generalizing o with
  | nil => simp [copyIf]
  | cons a l ih =>
    simp only [List.cons_append, copyIf, ih, bind_assoc]
    refine bind_congr fun b => ?_
    cases b <;> simp

theorem transform_append (out : O → W → m O) (op : A → m W) (l l' : List A) (o : O) :
    transform out op (l ++ l') o = transform out op l o >>= transform out op l' := by
  induction l generalizing o with
  | nil => simp [transform]
  | cons a l ih => simp only [List.cons_append, transform, ih, bind_assoc]

theorem transform2_append (out : O → W → m O) (op : A → B → m W) (l l' : List A) (bs : List B) (o : O) (h : l.length ≤ bs.length) :
    transform2 out op (l ++ l') bs o = transform2 out op l bs o >>= transform2 out op l' (bs.drop l.length) := by
  induction l generalizing o bs with
  | nil => simp [transform2]
  | cons a l ih =>
    cases bs with
    | nil => simp at h
    | cons b bs =>
      have h : l.length ≤ bs.length := by simpa using h
      simp only [List.cons_append, transform2, ih _ _ h, bind_assoc, List.length_cons, List.drop_succ_cons]

theorem replaceCopyIf_append (out : O → A → m O) (outNew : O → m O) (p : A → m Bool) (l l' : List A) (o : O) :
    replaceCopyIf out outNew p (l ++ l') o = replaceCopyIf out outNew p l o >>= replaceCopyIf out outNew p l' := by
  induction l generalizing o with
  | nil => simp [replaceCopyIf]
  | cons a l ih =>
    simp only [List.cons_append, replaceCopyIf, ih, bind_assoc]
    refine bind_congr fun b => ?_
    cases b <;> simp

theorem removeCopyIf_append (out : O → A → m O) (p : A → m Bool) (l l' : List A) (o : O) :
    removeCopyIf out p (l ++ l') o = removeCopyIf out p l o >>= removeCopyIf out p l' := by
  induction l generalizing o with
  | nil => simp [removeCopyIf]
  | cons a l ih =>
    simp only [List.cons_append, removeCopyIf, ih, bind_assoc]
    refine bind_congr fun b => ?_
    cases b <;> simp

theorem partitionCopy_append {O' : Type} (out : O → A → m O) (out' : O' → A → m O') (p : A → m Bool) (l l' : List A) (o : O) (o' : O') :
    partitionCopy out out' p (l ++ l') o o' = partitionCopy out out' p l o o' >>= fun r => partitionCopy out out' p l' r.1 r.2 := by
  induction l generalizing o o' with
  | nil => simp [partitionCopy]
  | cons a l ih =>
    simp only [List.cons_append, partitionCopy, ih, bind_assoc]
    refine bind_congr fun b => ?_
    cases b <;> simp

end StdAlg
end PolyColl
