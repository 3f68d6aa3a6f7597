import Verif.Model.Algorithm
/-!
# Comparing computations

`Sim R x y`: the computation `x` is never undefined and has the same effects as `y`, and their
results are related by `R` whatever those effects are.
-/

namespace PolyColl
namespace Algo
variable {m : Type → Type} [Monad m] [LawfulMonad m] {α β γ δ : Type}

/-- There is one computation that gives pairs of related results, of which `x` gives the first and
`y` the second component. -/
def Sim (R : α → β → Prop) (x : OptionT m α) (y : m β) : Prop :=
  ∃ z : m {p : α × β // R p.1 p.2}, x.run = (fun p => some p.1.1) <$> z ∧ y = (fun p => p.1.2) <$> z

theorem Sim.pure {R : α → β → Prop} {a : α} {b : β} (h : R a b) : Sim (m := m) R (Pure.pure a) (Pure.pure b) := by
  refine ⟨Pure.pure ⟨(a, b), h⟩, ?_, ?_⟩
  · rw [map_pure]; rfl
  · rw [map_pure]

theorem Sim.mono {R S : α → β → Prop} {x : OptionT m α} {y : m β} (h : Sim R x y) (hr : ∀ a b, R a b → S a b) : Sim S x y := by
  obtain ⟨z, h1, h2⟩ := h
  refine ⟨(fun p => ⟨p.1, hr _ _ p.2⟩) <$> z, ?_, ?_⟩
  · rw [h1, Functor.map_map]
  · rw [h2, Functor.map_map]

theorem Sim.bind {R : α → β → Prop} {S : γ → δ → Prop} {x : OptionT m α} {y : m β} {f : α → OptionT m γ} {g : β → m δ}
    (h : Sim R x y) (hf : ∀ a b, R a b → Sim S (f a) (g b)) : Sim S (x >>= f) (y >>= g) := by
  obtain ⟨z, h1, h2⟩ := h
  have hf' : ∀ p : {p : α × β // R p.1 p.2}, ∃ k : m {p : γ × δ // S p.1 p.2},
      (f p.1.1).run = (fun p => some p.1.1) <$> k ∧ g p.1.2 = (fun p => p.1.2) <$> k := fun p => hf p.1.1 p.1.2 p.2
  obtain ⟨k, hk⟩ := Classical.axiomOfChoice hf'
  refine ⟨z >>= k, ?_, ?_⟩
  · rw [OptionT.run_bind, h1, map_bind]
    simp only [Option.elimM, bind_map_left, Option.elim_some]
    exact bind_congr fun p => (hk p).1
  · rw [h2, map_bind]
    simp only [bind_map_left]
    exact bind_congr fun p => (hk p).2

omit [LawfulMonad m] in
theorem defd_some (a : α) : (defd (some a) : OptionT m α) = Pure.pure a := rfl

theorem Sim.defd {S : α → β → Prop} {o : Option γ} {c : γ} {f : γ → OptionT m α} {y : m β} (ho : o = some c) (h : Sim S (f c) y) :
    Sim S (Algo.defd o >>= f) y := by
  subst ho
  rw [defd_some, pure_bind]
  exact h

theorem Sim.call (x : m α) : Sim Eq (Algo.call x) x := by
  refine ⟨(fun a => ⟨(a, a), rfl⟩) <$> x, ?_, ?_⟩
  · rw [Functor.map_map]; rfl
  · rw [Functor.map_map]; simp

theorem Sim.callBind {S : γ → δ → Prop} {x : m α} {f : α → OptionT m γ} {g : α → m δ} (hf : ∀ a, Sim S (f a) (g a)) :
    Sim S (Algo.call x >>= f) (x >>= g) :=
  (Sim.call x).bind fun a b h => by subst h; exact hf a

omit [LawfulMonad m] in
theorem Sim.ite {R : α → β → Prop} {b : Bool} {x x' : OptionT m α} {y y' : m β} (h : b = true → Sim R x y) (h' : b = false → Sim R x' y') :
    Sim R (if b then x else x') (if b then y else y') := by
  cases b
  · exact h' rfl
  · exact h rfl

/-- A result applied to a function on both sides. -/
theorem Sim.map {R : α → β → Prop} {S : γ → δ → Prop} {x : OptionT m α} {y : m β} {f : α → γ} {g : β → δ}
    (h : Sim R x y) (hf : ∀ a b, R a b → S (f a) (g b)) : Sim S (do return f (← x)) (do return g (← y)) :=
  h.bind fun a b hab => Sim.pure (hf a b hab)

/-- If the results are always equal, the computations are. -/
theorem Sim.eq {x : OptionT m α} {y : m α} (h : Sim Eq x y) : x.run = some <$> y := by
  obtain ⟨z, h1, h2⟩ := h
  rw [h1, h2, Functor.map_map]
  have : (fun p : {p : α × α // p.1 = p.2} => some p.1.1) = (fun p => some p.1.2) := funext fun p => by rw [p.2]
  rw [this]

/-- If the results of `x` are a function of those of `y`. -/
theorem Sim.eqMap {x : OptionT m α} {y : m β} {f : β → α} (h : Sim (fun a b => a = f b) x y) : x.run = (fun b => some (f b)) <$> y := by
  obtain ⟨z, h1, h2⟩ := h
  rw [h1, h2, Functor.map_map]
  have : (fun p : {p : α × β // p.1 = f p.2} => some p.1.1) = (fun p => some (f p.1.2)) := funext fun p => by rw [p.2]
  rw [this]

/-- The case of no effects. -/
theorem Sim.id {R : α → β → Prop} {x : OptionT Id α} {b : β} (h : Sim (m := Id) R x b) : ∃ a, x.run = some a ∧ R a b := by
  obtain ⟨z, h1, h2⟩ := h
  refine ⟨z.1.1, h1, ?_⟩
  have h2 : b = z.1.2 := h2
  rw [h2]
  exact z.2

omit [LawfulMonad m] in
theorem Sim.congr {R : α → β → Prop} {x : OptionT m α} {y y' : m β} (h : Sim R x y) (hy : y = y') : Sim R x y' := hy ▸ h

end Algo
end PolyColl
