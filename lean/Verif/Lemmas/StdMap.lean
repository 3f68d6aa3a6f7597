import Verif.Lemmas.AlgoPart
import Verif.Lemmas.AlgoPerm
import Verif.Lemmas.AlgoAdjacent
import Verif.Lemmas.StdPerm
/-!
# Functors that do not distinguish elements

If a change of the elements makes no difference to the functors, it makes none to an algorithm.
-/

namespace PolyColl
namespace StdAlg
variable {m : Type → Type} [Monad m] {A B O W : Type} {g : A → A}

theorem allOf_same {p : A → m Bool} (h : ∀ a, p (g a) = p a) (l : List A) : allOf p (l.map g) = allOf p l := by
  induction l with
  | nil => rfl
  | cons a l ih => simp only [List.map_cons, allOf, h, ih]

theorem anyOf_same {p : A → m Bool} (h : ∀ a, p (g a) = p a) (l : List A) : anyOf p (l.map g) = anyOf p l := by
  induction l with
  | nil => rfl
  | cons a l ih => simp only [List.map_cons, anyOf, h, ih]

theorem noneOf_same {p : A → m Bool} (h : ∀ a, p (g a) = p a) (l : List A) : noneOf p (l.map g) = noneOf p l := by
  induction l with
  | nil => rfl
  | cons a l ih => simp only [List.map_cons, noneOf, h, ih]

theorem foldlM_same {F : Type} {f : F → A → m F} (h : ∀ s a, f s (g a) = f s a) (l : List A) (s : F) : (l.map g).foldlM f s = l.foldlM f s := by
  induction l generalizing s with
  | nil => rfl
  | cons a l ih => simp only [List.map_cons, List.foldlM_cons, h, ih]

theorem findIf_same {p : A → m Bool} (h : ∀ a, p (g a) = p a) (l : List A) : findIf p (l.map g) = findIf p l := by
  induction l with
  | nil => rfl
  | cons a l ih => simp only [List.map_cons, findIf, h, ih]

theorem findIfNot_same {p : A → m Bool} (h : ∀ a, p (g a) = p a) (l : List A) : findIfNot p (l.map g) = findIfNot p l := by
  induction l with
  | nil => rfl
  | cons a l ih => simp only [List.map_cons, findIfNot, h, ih]

theorem findFirstOf_same {p : A → B → m Bool} (h : ∀ a, p (g a) = p a) (bs : List B) (l : List A) :
    findFirstOf p bs (l.map g) = findFirstOf p bs l := findIf_same (fun a => by rw [h]) l

theorem adjacentFind_same {p : A → A → m Bool} (h : ∀ a, p (g a) = p a) (h' : ∀ a b, p a (g b) = p a b) (l : List A) :
    adjacentFind p (l.map g) = adjacentFind p l := by
  match l with
  | [] => rfl
  | [_] => rfl
  | a :: b :: l =>
    have ih := adjacentFind_same h h' (b :: l)
    simp only [List.map_cons] at ih
    simp only [List.map_cons, adjacentFind, h, h', ih]

theorem countIf_same {p : A → m Bool} (h : ∀ a, p (g a) = p a) (l : List A) : countIf p (l.map g) = countIf p l := by
  induction l with
  | nil => rfl
  | cons a l ih => simp only [List.map_cons, countIf, h, ih]

theorem mismatch_same {p : A → B → m Bool} (h : ∀ a, p (g a) = p a) (l : List A) (bs : List B) : mismatch p (l.map g) bs = mismatch p l bs := by
  induction l generalizing bs with
  | nil => rfl
  | cons a l ih =>
    cases bs with
    | nil => rfl
    | cons b bs => simp only [List.map_cons, mismatch, h, ih]

theorem equal_same {p : A → B → m Bool} (h : ∀ a, p (g a) = p a) (l : List A) (bs : List B) : equal p (l.map g) bs = equal p l bs := by
  induction l generalizing bs with
  | nil => rfl
  | cons a l ih =>
    cases bs with
    | nil => rfl
    | cons b bs => simp only [List.map_cons, equal, h, ih]

theorem search_same {p : A → B → m Bool} (h : ∀ a, p (g a) = p a) (bs : List B) (l : List A) : search p bs (l.map g) = search p bs l := by
  induction l with
  | nil => rfl
  | cons a l ih =>
    have := mismatch_same h (a :: l) bs
    rw [List.map_cons] at this
    simp only [List.map_cons, search, this, ih]

theorem findEndFrom_same {p : A → B → m Bool} (h : ∀ a, p (g a) = p a) (bs : List B) : ∀ (d : Nat) (l : List A) (off res : Nat), l.length = d →
    findEndFrom p bs (l.map g) off res = findEndFrom p bs l off res := by
  intro d
  induction d using Nat.strongRecOn with
  | ind d ih =>
    intro l off res hd
    rw [findEndFrom, findEndFrom, search_same h]
    congr 1
    funext n
    by_cases hn : n < l.length
    · have hn' : n < (l.map g).length := by rwa [List.length_map]
      rw [dif_pos hn, dif_pos hn', ← List.map_drop, ih _ (by rw [← hd, List.length_drop]; omega) _ _ _ rfl]
    · have hn' : ¬ n < (l.map g).length := by rwa [List.length_map]
      rw [dif_neg hn, dif_neg hn']

theorem findEnd_same {p : A → B → m Bool} (h : ∀ a, p (g a) = p a) (bs : List B) (l : List A) : findEnd p bs (l.map g) = findEnd p bs l := by
  unfold findEnd
  rw [List.length_map, findEndFrom_same h bs _ l _ _ rfl]

theorem searchN_same {p : A → m Bool} (h : ∀ a, p (g a) = p a) (count : Int) (l : List A) : searchN p count (l.map g) = searchN p count l := by
  have key : ∀ (count : Nat) (l : List A) (n run : Nat), searchNFrom p count (l.map g) n run = searchNFrom p count l n run := by
    intro count l
    induction l with
    | nil => intro n run; rfl
    | cons a l ih => intro n run; simp only [List.map_cons, searchNFrom, h, ih]
  unfold searchN
  rw [key]

theorem copy_same {out : O → A → m O} (h : ∀ o a, out o (g a) = out o a) (l : List A) (o : O) : copy out (l.map g) o = copy out l o := by
  induction l generalizing o with
  | nil => rfl
  | cons a l ih => simp only [List.map_cons, copy, h, ih]

theorem copyIf_same {out : O → A → m O} {p : A → m Bool} (h : ∀ o a, out o (g a) = out o a) (hp : ∀ a, p (g a) = p a) (l : List A) (o : O) :
    copyIf out p (l.map g) o = copyIf out p l o := by
  induction l generalizing o with
  | nil => rfl
  | cons a l ih => simp only [List.map_cons, copyIf, h, hp, ih]

theorem transform_same {out : O → W → m O} {op : A → m W} (h : ∀ a, op (g a) = op a) (l : List A) (o : O) :
    transform out op (l.map g) o = transform out op l o := by
  induction l generalizing o with
  | nil => rfl
  | cons a l ih => simp only [List.map_cons, transform, h, ih]

theorem transform2_same {out : O → W → m O} {op : A → B → m W} (h : ∀ a, op (g a) = op a) (l : List A) (bs : List B) (o : O) :
    transform2 out op (l.map g) bs o = transform2 out op l bs o := by
  induction l generalizing bs o with
  | nil => rfl
  | cons a l ih =>
    cases bs with
    | nil => rfl
    | cons b bs => simp only [List.map_cons, transform2, h, ih]

theorem replaceCopyIf_same {out : O → A → m O} {outNew : O → m O} {p : A → m Bool} (h : ∀ o a, out o (g a) = out o a) (hp : ∀ a, p (g a) = p a)
    (l : List A) (o : O) : replaceCopyIf out outNew p (l.map g) o = replaceCopyIf out outNew p l o := by
  induction l generalizing o with
  | nil => rfl
  | cons a l ih => simp only [List.map_cons, replaceCopyIf, h, hp, ih]

theorem removeCopyIf_same {out : O → A → m O} {p : A → m Bool} (h : ∀ o a, out o (g a) = out o a) (hp : ∀ a, p (g a) = p a) (l : List A) (o : O) :
    removeCopyIf out p (l.map g) o = removeCopyIf out p l o := by
  induction l generalizing o with
  | nil => rfl
  | cons a l ih => simp only [List.map_cons, removeCopyIf, h, hp, ih]

theorem uniqueCopy_same {out : O → A → m O} {p : A → A → m Bool} (h : ∀ o a, out o (g a) = out o a) (h1 : ∀ a, p (g a) = p a)
    (h2 : ∀ a b, p a (g b) = p a b) (l : List A) (o : O) : uniqueCopy out p (l.map g) o = uniqueCopy out p l o := by
  have key : ∀ (l : List A) (a : A) (o : O), uniqueCopyFrom out p (g a) (l.map g) o = uniqueCopyFrom out p a l o := by
    intro l
    induction l with
    | nil => intro a o; rfl
    | cons b l ih => intro a o; simp only [List.map_cons, uniqueCopyFrom, h, h1, h2, ih]
  cases l with
  | nil => rfl
  | cons a l => simp only [List.map_cons, uniqueCopy, h, key]

theorem rotateCopy_same {out : O → A → m O} (h : ∀ o a, out o (g a) = out o a) (l l' : List A) (o : O) :
    rotateCopy out (l.map g) (l'.map g) o = rotateCopy out l l' o := by
  unfold rotateCopy
  rw [copy_same h]
  congr 1
  funext o
  exact copy_same h l o

theorem partitionCopy_same {O' : Type} {out : O → A → m O} {out' : O' → A → m O'} {p : A → m Bool} (h : ∀ o a, out o (g a) = out o a)
    (h' : ∀ o a, out' o (g a) = out' o a) (hp : ∀ a, p (g a) = p a) (l : List A) (o : O) (o' : O') :
    partitionCopy out out' p (l.map g) o o' = partitionCopy out out' p l o o' := by
  induction l generalizing o o' with
  | nil => rfl
  | cons a l ih => simp only [List.map_cons, partitionCopy, h, h', hp, ih]

theorem sample_same {out : O → A → m O} {rnd : (k : Nat) → m (Fin (k + 1))} (h : ∀ o a, out o (g a) = out o a) (l : List A) (n : Nat) (o : O) :
    sample out rnd (l.map g) n o = sample out rnd l n o := by
  induction l generalizing n o with
  | nil => rfl
  | cons a l ih =>
    cases n with
    | zero => rfl
    | succ n =>
      have key : ∀ (j j' : Nat) (f : Nat → m O), j = j' → (rnd j >>= fun r => f r.val) = (rnd j' >>= fun r => f r.val) := by
        rintro j _ f rfl; rfl
      simp only [List.map_cons, sample, h, ih]
      exact key _ _ (fun r => if r < n + 1 then out o a >>= sample out rnd l n else sample out rnd l (n + 1) o) (List.length_map g)

theorem isPartitioned_same {p : A → m Bool} (h : ∀ a, p (g a) = p a) (l : List A) : isPartitioned p (l.map g) = isPartitioned p l := by
  induction l with
  | nil => rfl
  | cons a l ih => simp only [List.map_cons, isPartitioned, h, noneOf_same h, ih]

theorem partitionPoint_none {p : A → m Bool} {l : List A} (h : l[l.length / 2]? = none) : partitionPoint p l = pure 0 := by
  rw [partitionPoint]
  split
  · rfl
  · rename_i h1; rw [h] at h1; cases h1

theorem partitionPoint_some {p : A → m Bool} {l : List A} {a : A} (h : l[l.length / 2]? = some a) :
    partitionPoint p l = p a >>= fun b => if b then (do return l.length / 2 + 1 + (← partitionPoint p (l.drop (l.length / 2 + 1))))
      else partitionPoint p (l.take (l.length / 2)) := by
  rw [partitionPoint]
  split
  · rename_i h1; rw [h] at h1; cases h1
  · rename_i h1; rw [h] at h1; cases h1; rfl

theorem partitionPoint_same {p : A → m Bool} (h : ∀ a, p (g a) = p a) : ∀ (d : Nat) (l : List A), l.length = d →
    partitionPoint p (l.map g) = partitionPoint p l := by
  intro d
  induction d using Nat.strongRecOn with
  | ind d ih =>
    intro l hd
    have hl : (l.map g).length / 2 = l.length / 2 := by rw [List.length_map]
    cases hx : l[l.length / 2]? with
    | none =>
      have hx' : (l.map g)[(l.map g).length / 2]? = none := by rw [hl, List.getElem?_map, hx]; rfl
      rw [partitionPoint_none hx, partitionPoint_none hx']
    | some a =>
      have hx' : (l.map g)[(l.map g).length / 2]? = some (g a) := by rw [hl, List.getElem?_map, hx]; rfl
      have hlt := (List.getElem?_eq_some_iff.1 hx).1
      rw [partitionPoint_some hx, partitionPoint_some hx', h, hl, ← List.map_drop, ← List.map_take, ih _ (by rw [← hd, List.length_drop]; omega) _ rfl,
        ih _ (by rw [← hd, List.length_take]; omega) _ rfl]

theorem Permuted.same {P : A → A → Bool} {Q : A → B → Bool} (hm : Matching P Q) (h : ∀ a, Q (g a) = Q a) (h1 : ∀ a, P (g a) = P a)
    (h2 : ∀ a b, P a (g b) = P a b) (l : List A) (bs : List B) : Permuted Q (l.map g) bs ↔ Permuted Q l bs := by
  rw [permuted_count hm, permuted_count hm, List.length_map]
  have key : ∀ a, (l.map g).countP (P a) = l.countP (P a) := by
    intro a
    rw [List.countP_map]
    congr 1
    funext b
    exact h2 a b
  constructor
  · rintro ⟨h3, h4⟩
    refine ⟨h3, fun a ha => ?_⟩
    have := h4 (g a) (List.mem_map_of_mem ha)
    rwa [h, h1, key] at this
  · rintro ⟨h3, h4⟩
    refine ⟨h3, fun a ha => ?_⟩
    obtain ⟨b, hb, rfl⟩ := List.mem_map.1 ha
    rw [h, h1, key]
    exact h4 b hb

end StdAlg
end PolyColl
