/-!
# Changing the elements of a range one after the other
-/

namespace PolyColl
namespace Spec

variable {A F : Type}

/-- The elements of a list changed in order by a function with state, and the state in the end. -/
def changeAll (g : F → A → A × F) : F → List A → List A × F
  | s, [] => ([], s)
  | s, a :: l => ((g s a).1 :: (changeAll g (g s a).2 l).1, (changeAll g (g s a).2 l).2)

/-- The same for the `n` elements from place `r` on; the others stay as they are. -/
def change (g : F → A → A × F) (s : F) (r n : Nat) (l : List A) : List A × F :=
  (l.take r ++ (changeAll g s ((l.drop r).take n)).1 ++ l.drop (r + n), (changeAll g s ((l.drop r).take n)).2)

/-- The same where the call for element `j` of these fails: the function leaves `b s a` of an element `a`
then.  The elements after it are not touched. -/
def changeUpTo (g : F → A → A × F) (b : F → A → A) (s : F) (r j : Nat) (l : List A) : List A :=
  (change g s r j l).1.modify (r + j) (b (change g s r j l).2)

end Spec
end PolyColl
