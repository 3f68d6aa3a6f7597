/-!
# The algorithms of the standard library, on lists

What the algorithms of `<algorithm>` do with the elements of a range, given as a list: the values
returned, and the calls of the functors in their order.  Functors and output iterators live in any
monad `m`, so they may have state, write to a log, throw and so on.

A position of a range is given by its distance to the beginning of the range, so that `l.length`
stands for `last`.  The second range of an algorithm taking two is given by the list of its
elements, an iterator into it by the list of the elements from there on.  An output iterator is a
value of a type `O` together with a function `out` that writes to it and gives the iterator after
it: `*res=x;++res`.
-/

namespace PolyColl
namespace StdAlg
variable {m : Type → Type} [Monad m] {A B O W : Type}

/-- `std::all_of`. -/
def allOf (p : A → m Bool) : List A → m Bool
  | [] => pure true
  | a :: l => do if ← p a then allOf p l else pure false

/-- `std::any_of`. -/
def anyOf (p : A → m Bool) : List A → m Bool
  | [] => pure false
  | a :: l => do if ← p a then pure true else anyOf p l

/-- `std::none_of`. -/
def noneOf (p : A → m Bool) : List A → m Bool
  | [] => pure true
  | a :: l => do if ← p a then pure false else noneOf p l

/-- `std::for_each`; `F` is the state of the function object itself. -/
def forEach {F : Type} (f : F → A → m F) : List A → F → m F
  | [], s => pure s
  | a :: l, s => do forEach f l (← f s a)

/-- `std::find_if`. -/
def findIf (p : A → m Bool) : List A → m Nat
  | [] => pure 0
  | a :: l => do if ← p a then pure 0 else return (← findIf p l) + 1

/-- `std::find_if_not`. -/
def findIfNot (p : A → m Bool) : List A → m Nat
  | [] => pure 0
  | a :: l => do if ← p a then return (← findIfNot p l) + 1 else pure 0

/-- `std::find_first_of`: the first element that matches one of the second range. -/
def findFirstOf (p : A → B → m Bool) (bs : List B) : List A → m Nat := findIf fun a => anyOf (p a) bs

/-- `std::adjacent_find`. -/
def adjacentFind (p : A → A → m Bool) : List A → m Nat
  | [] => pure 0
  | [_] => pure 1
  | a :: b :: l => do if ← p a b then pure 0 else return (← adjacentFind p (b :: l)) + 1

/-- `std::count_if`. -/
def countIf (p : A → m Bool) : List A → m Nat
  | [] => pure 0
  | a :: l => do if ← p a then return (← countIf p l) + 1 else countIf p l

/-- `std::mismatch`: how far the ranges match, and the second range from there on. -/
def mismatch (p : A → B → m Bool) : List A → List B → m (Nat × List B)
  | a :: l, b :: bs => do
    if ← p a b then
      let r ← mismatch p l bs
      return (r.1 + 1, r.2)
    else return (0, b :: bs)
  | _, bs => pure (0, bs)

/-- `std::equal` for ranges of the same length or not. -/
def equal (p : A → B → m Bool) : List A → List B → m Bool
  | [], bs => pure bs.isEmpty
  | _ :: _, [] => pure false
  | a :: l, b :: bs => do if ← p a b then equal p l bs else pure false

/-- `std::search`: the first position from which on the second range matches. -/
def search (p : A → B → m Bool) (bs : List B) : List A → m Nat
  | [] => pure 0
  | a :: l => do
    let r ← mismatch p (a :: l) bs
    if r.2.isEmpty then pure 0 else return (← search p bs l) + 1

/-- `std::find_end` by repeated search from position `off` on, `res` being the last match so far. -/
def findEndFrom (p : A → B → m Bool) (bs : List B) (l : List A) (off res : Nat) : m Nat := do
  let n ← search p bs l
  if _h : n < l.length then findEndFrom p bs (l.drop (n + 1)) (off + n + 1) (off + n) else pure res
termination_by l.length
decreasing_by simp only [List.length_drop]; omega

/-- `std::find_end`. -/
def findEnd (p : A → B → m Bool) (bs : List B) (l : List A) : m Nat :=
  if bs.isEmpty then pure l.length else findEndFrom p bs l 0 l.length

/-- `std::search_n` from position `n` on, with `run` matches just before it. -/
def searchNFrom (p : A → m Bool) (count : Nat) : List A → Nat → Nat → m Nat
  | [], n, _ => pure n
  | a :: l, n, run => do
    if ← p a then
      if run + 1 = count then pure (n - run) else searchNFrom p count l (n + 1) (run + 1)
    else searchNFrom p count l (n + 1) 0

/-- `std::search_n`; the value to compare with is part of the predicate. -/
def searchN (p : A → m Bool) (count : Int) (l : List A) : m Nat :=
  if count ≤ 0 then pure 0 else searchNFrom p count.toNat l 0 0

/-- `std::copy`. -/
def copy (out : O → A → m O) : List A → O → m O
  | [], o => pure o
  | a :: l, o => do copy out l (← out o a)

/-- `std::copy_if`. -/
def copyIf (out : O → A → m O) (p : A → m Bool) : List A → O → m O
  | [], o => pure o
  | a :: l, o => do if ← p a then copyIf out p l (← out o a) else copyIf out p l o

/-- `std::transform` of one range. -/
def transform (out : O → W → m O) (op : A → m W) : List A → O → m O
  | [], o => pure o
  | a :: l, o => do
    let x ← op a
    transform out op l (← out o x)

/-- `std::transform` of two ranges, the second one at least as long as the first. -/
def transform2 (out : O → W → m O) (op : A → B → m W) : List A → List B → O → m O
  | a :: l, b :: bs, o => do
    let x ← op a b
    transform2 out op l bs (← out o x)
  | _, _, o => pure o

/-- `std::replace_copy_if`; `outNew` writes the new value. -/
def replaceCopyIf (out : O → A → m O) (outNew : O → m O) (p : A → m Bool) : List A → O → m O
  | [], o => pure o
  | a :: l, o => do
    if ← p a then replaceCopyIf out outNew p l (← outNew o)
    else replaceCopyIf out outNew p l (← out o a)

/-- `std::remove_copy_if`. -/
def removeCopyIf (out : O → A → m O) (p : A → m Bool) : List A → O → m O
  | [], o => pure o
  | a :: l, o => do if ← p a then removeCopyIf out p l o else removeCopyIf out p l (← out o a)

/-- `std::unique_copy` from the second element on; `a` is the last element written. -/
def uniqueCopyFrom (out : O → A → m O) (p : A → A → m Bool) : A → List A → O → m O
  | _, [], o => pure o
  | a, b :: l, o => do
    if ← p a b then uniqueCopyFrom out p a l o
    else uniqueCopyFrom out p b l (← out o b)

/-- `std::unique_copy`. -/
def uniqueCopy (out : O → A → m O) (p : A → A → m Bool) : List A → O → m O
  | [], o => pure o
  | a :: l, o => do uniqueCopyFrom out p a l (← out o a)

/-- `std::rotate_copy`, for the ranges before and after `middle`. -/
def rotateCopy (out : O → A → m O) (l l' : List A) (o : O) : m O := do copy out l (← copy out l' o)

/-- `std::partition_copy`. -/
def partitionCopy {O' : Type} (out : O → A → m O) (out' : O' → A → m O') (p : A → m Bool) : List A → O → O' → m (O × O')
  | [], o, o' => pure (o, o')
  | a :: l, o, o' => do
    if ← p a then partitionCopy out out' p l (← out o a) o'
    else partitionCopy out out' p l o (← out' o' a)

/-- `std::sample` as selection sampling: going through the range, with `n` elements still to be
taken out of the ones left, the next one is taken if a number drawn from as many as are left is
below `n`.  `rnd k` draws from `0,…,k`. -/
def sample (out : O → A → m O) (rnd : (k : Nat) → m (Fin (k + 1))) : List A → Nat → O → m O
  | [], _, o => pure o
  | _ :: _, 0, o => pure o
  | a :: l, n + 1, o => do
    let r ← rnd l.length
    if r.val < n + 1 then sample out rnd l n (← out o a) else sample out rnd l (n + 1) o

/-- `std::is_partitioned`. -/
def isPartitioned (p : A → m Bool) : List A → m Bool
  | [] => pure true
  | a :: l => do if ← p a then isPartitioned p l else noneOf p l

/-- `std::partition_point`: bisection. -/
def partitionPoint (p : A → m Bool) (l : List A) : m Nat :=
  match h : l[l.length / 2]? with
  | none => pure 0
  | some a => do
    if ← p a then return l.length / 2 + 1 + (← partitionPoint p (l.drop (l.length / 2 + 1)))
    else partitionPoint p (l.take (l.length / 2))
termination_by l.length
decreasing_by
  all_goals
    have := (List.getElem?_eq_some_iff.1 h).1
    simp only [List.length_drop, List.length_take]
    omega

end StdAlg
end PolyColl
