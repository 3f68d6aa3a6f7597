import Verif.Model.Writing
import Verif.Model.Object
/-!
# callable_wrapper (`detail/callable_wrapper.hpp`)

The elements of the index of a segment of `function_collection`, which are the `value_type` its
iterators refer to.  `Split.lean` takes them to be the addresses they hold; here they are complete.
-/

namespace PolyColl
open Prog

/-- `callable_wrapper<R(Args...)>` (94-95).  The table `pt` (70-75) there is for each type of callables
is represented by its `info`; `px` is the address of an object in the store. -/
structure Wrapper where
  info : TI
  px : Ptr
  deriving DecidableEq, Repr

/-- What is given of a signature `R(Args...)`, `A` being the type of tuples of arguments. -/
structure Signature (V A R : Type) where
  /-- `typeid(Callable)` (85) -/
  info : Ty → TI
  /-- the result of `INVOKE(f,std::forward<Args>(args)...,R)` for an object f of a type -/
  ret : Ty → V → A → R
  /-- what this does to f -/
  act : Ty → A → Act V
  /-- `&f`, given the type and the address of f: another address if the type overloads unary `&` -/
  amp : Ty → Ptr → Ptr
  /-- the type is `callable_wrapper<R(Args...)>` itself -/
  own : Ty → Bool
  /-- the value of an object of that type -/
  held : V → Wrapper

variable {V A R : Type} (E : Env V) (S : Signature V A R)

/-- `function_model::make_value_type(x)` (`detail/function_model.hpp` 116-117) for the object of type `t` at
address `p` with value `v`, if there is one: `value_type{x}`.  The constructor (37-44) stores `&x` and does not
look at the object; it is disabled for wrappers (40), which are copied (45), and this is undefined if
there is no object. -/
def Signature.make (t : Ty) (p : Ptr) (v : Option V) : Option Wrapper :=
  if S.own t then v.map S.held else some ⟨S.info t, S.amp t p⟩

/-- A segment of a `function_collection`: `ws` are the elements of the index, `x.i` the addresses in
the store they were made for. -/
structure FSplit (V : Type) where
  x : Split V
  ws : List Wrapper

namespace FSplit

/-- One iteration of the loop of `build_index` (`detail/split_segment.hpp` 382-384):
`i.push_back(make_value_type(concrete_ref(s.data()[n])))`.  There is no object in slot `s.size()`. -/
def pushIndex (n : Nat) : Prog (FSplit V) Unit := do
  let f ← Prog.get
  let e ← Prog.ofOption (S.make f.x.ty (f.x.s.ptr n) f.x.s.elems[n]?)
  Prog.zoom FSplit.x (fun f x => { f with x := x }) (Split.pushIndex E n)
  let f ← Prog.get
  Prog.set { f with ws := f.ws ++ [e] }

/-- `build_index(start)` (`detail/split_segment.hpp` 380-385). -/
def buildIndex (start : Nat) : Prog (FSplit V) Unit := do
  let f ← Prog.get
  Prog.each (pushIndex E S) (List.range' start (f.x.s.size + 1 - start))

end FSplit

/-! ### Use of wrappers -/

/-- The wrapper at position `p` of the index of a segment, as `*it` gives it: it was made by `make`
for the address that the index holds (`FSplit`). -/
def Coll.wrapper (c : Coll V) (p : Ptr) : Option Wrapper :=
  c.map.nodes.findSome? fun n => (n.seg.be.entry p).map fun q => ⟨S.info n.seg.ty, S.amp n.seg.ty q⟩

/-- `std::ref(*static_cast<Callable*>(p))(std::forward<Args>(args)...)`, converted to R (81-84).  Undefined
unless there is an element of type `Callable` at that address. -/
def Coll.invoke (t : Ty) (p : Ptr) (a : A) : Prog (Coll V) R := do
  let c ← Prog.get
  let n ← Prog.ofOption (c.map.nodes.find? fun n => (n.seg.be.derefLocal p).isSome)
  if n.seg.ty = t then
    let v ← Coll.apply E .terminal p (S.act t a)
    return S.ret t v a
  else Prog.undef

/-- A `std::function<R(Args...)>` made from a `std::reference_wrapper<Callable>`: type and address of the
callable. -/
structure FunRef where
  ty : Ty
  addr : Ptr
  deriving DecidableEq, Repr

/-- Its `operator()`. -/
def FunRef.call (f : FunRef) (a : A) : Prog (Coll V) R := Coll.invoke E S f.ty f.addr a

namespace Wrapper

/-- `operator bool` (48). -/
def toBool (_ : Wrapper) : Bool := true

/-- `operator()` (50-51). -/
def call (f : Wrapper) (a : A) : Prog (Coll V) R := Coll.invoke E S (E.tiTy f.info) f.px a

/-- `target_type()` (53). -/
def targetType (f : Wrapper) : TI := f.info

/-- `target<T>()` (55-60), `none` being `nullptr`. -/
def target (f : Wrapper) (t : TI) : Option Ptr := if E.tiTy t = E.tiTy f.info then some f.px else none

/-- Conversion to `std::function<R(Args...)>` (64, 86-89). -/
def convert (f : Wrapper) : FunRef := ⟨E.tiTy f.info, f.px⟩

/-- `data()` (66-67). -/
def data (f : Wrapper) : Ptr := f.px

/-- The wrapper as an argument of `insert`, `typeid(callable_wrapper<R(Args...)>)` being `stat`. -/
def expr (f : Wrapper) (stat : TI) (acc : Bool) (at' : Addr) : Expr := ⟨stat, false, true, acc, at', f.targetType, .elem f.data 0, false⟩

end Wrapper

/-- `for(auto& f:c)rs.push_back(f(args...));` from `it` on. -/
def Coll.callAll (last : GIter) (a : A) : GIter → Nat → Prog (Coll V) (List R)
  | _, 0 => Prog.undef
  | it, fuel + 1 =>
    if it.segpos = last.segpos then return []
    else do
      let c ← Prog.get
      let f ← Prog.ofOption (c.wrapper S it.segpos)
      let r ← f.call E S a
      let c ← Prog.get
      let it' ← Prog.ofOption (c.map.increment E it)
      let rs ← callAll last a it' fuel
      return r :: rs

end PolyColl
