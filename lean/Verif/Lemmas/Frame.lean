import Verif.Lemmas.History
/-! # The collections an operation changes -/

namespace PolyColl
open Prog

namespace Op
variable {V : Type}

/-- The collections an operation may change. -/
def writes : Op V → List Nat
  | on i _ | create i _ | fromRange i _ _ | fromTerminal i _ _ _ _ | fromColl i _ _ _ _ | fromLocalColl i _ _ _ _ | copy i _ | copyAl i _ _ | assign i _
  | insertColl i _ _ _ | insertLocalColl i _ _ _ | insertHintColl i _ _ _ _ | insertHintLocalColl i _ _ _ _ => [i]
  | move i j | moveAl i j _ | moveAssign i j | swap i j => [i, j]

end Op

namespace Coll
variable {V : Type} (E : Env V) {k : Kind}

theorem sys_construct_stays {i : Nat} {p : Prog (Sys V) (Coll V)} {s : Sys V} {w : World} {P : Nat → Prop} (hi : P i)
    (hp : Leaves p s w (fun _ s' _ => ∀ x, ¬ P x → s' x = s x) (fun _ s' _ => ∀ x, ¬ P x → s' x = s x)) :
    Leaves (Sys.construct i p) s w (fun _ s' _ => ∀ x, ¬ P x → s' x = s x) (fun _ s' _ => ∀ x, ¬ P x → s' x = s x) := by
  unfold Sys.construct
  simp only [leaves_bind, leaves_get, leaves_set]
  refine hp.mono (fun c s' w' h x hx => ?_) (fun _ _ _ h => h)
  unfold Sys.put
  rw [if_neg (fun e => hx (by rw [e]; exact hi))]
  exact h x hx

theorem build_stays {i : Nat} {al : Alloc} {p : Prog (Coll V) Unit} {s : Sys V} {w : World} {P : Nat → Prop} (hi : P i) :
    Leaves (Sys.construct i (locally (empty' k al) p fun _ c => c)) s w (fun _ s' _ => ∀ x, ¬ P x → s' x = s x)
      (fun _ s' _ => ∀ x, ¬ P x → s' x = s x) := by
  refine sys_construct_stays hi ?_
  unfold Leaves locally
  cases p (empty' k al) w <;> simp

/-- A program on a state it never looks at. -/
theorem copyAl_same {j : Nat} {al : Alloc} {s : Sys V} {w : World} (hs : SysInv E k s w) {P : Nat → Prop} :
    Leaves (copyAl E (s j) al : Prog (Sys V) (Coll V)) s w (fun _ s' _ => ∀ x, ¬ P x → s' x = s x) (fun _ s' _ => ∀ x, ¬ P x → s' x = s x) := by
  obtain ⟨hk, hj⟩ := hs.1 j
  refine (copyAl_runs E (s j) al s w (by rw [hk]; exact hj) hs.2).leaves.mono ?_ ?_
  · rintro c s' w' ⟨rfl, -⟩ x _; rfl
  · rintro c s' w' ⟨rfl, -⟩ x _; rfl

theorem on_same {α : Type} {j : Nat} {p : Prog (Coll V) α} {s : Sys V} {w : World} {P : Nat → Prop} (hj : P j) :
    Leaves (Sys.on j p) s w (fun _ s' _ => ∀ x, ¬ P x → s' x = s x) (fun _ s' _ => ∀ x, ¬ P x → s' x = s x) := by
  have key : ∀ c x, ¬ P x → s.put j c x = s x := by
    intro c x hx
    unfold Sys.put
    rw [if_neg (fun e => hx (by rw [e]; exact hj))]
  unfold Sys.on Leaves zoom
  cases p (s j) w <;> simp <;> exact fun x hx => key _ x hx

theorem on2_same {α : Type} {i j : Nat} {p : Prog (Coll V × Coll V) α} {s : Sys V} {w : World} {P : Nat → Prop} (hi : P i) (hj : P j) :
    Leaves (Sys.on2 i j p) s w (fun _ s' _ => ∀ x, ¬ P x → s' x = s x) (fun _ s' _ => ∀ x, ¬ P x → s' x = s x) := by
  have key : ∀ c d x, ¬ P x → (s.put i c).put j d x = s x := by
    intro c d x hx
    unfold Sys.put
    rw [if_neg (fun e => hx (by rw [e]; exact hj)), if_neg (fun e => hx (by rw [e]; exact hi))]
  unfold Sys.on2 Leaves zoom
  cases p (s i, s j) w <;> simp <;> exact fun x hx => key _ _ x hx

/-- An operation leaves alone the collections it does not change. -/
theorem run_changes (sub : Ty → TI) (op : Op V) (s : Sys V) (w : World) (hs : SysInv E k s w) :
    Leaves (op.run E k sub) s w (fun _ s' _ => ∀ x, x ∉ op.writes → s' x = s x) (fun _ s' _ => ∀ x, x ∉ op.writes → s' x = s x) := by
  cases op with
  | on i op => exact on_same (P := fun x => x ∈ [i]) (by simp)
  | create i al => exact sys_construct_stays (P := fun x => x ∈ [i]) (by simp) (fun x _ => rfl)
  | fromRange i al as => exact build_stays (P := fun x => x ∈ [i]) (by simp)
  | fromTerminal i al fwd t srcs => exact build_stays (P := fun x => x ∈ [i]) (by simp)
  | fromColl i j al f l =>
    simp only [Op.run, leaves_bind, leaves_get, leaves_ite]
    exact ⟨fun _ => trivial, fun _ => build_stays (P := fun x => x ∈ [i]) (by simp)⟩
  | fromLocalColl i j al f l =>
    simp only [Op.run, leaves_bind, leaves_get, leaves_ite]
    exact ⟨fun _ => trivial, fun _ => build_stays (P := fun x => x ∈ [i]) (by simp)⟩
  | copy i j =>
    simp only [Op.run, leaves_bind, leaves_get, leaves_ite]
    exact ⟨fun _ => trivial, fun _ => sys_construct_stays (P := fun x => x ∈ [i]) (by simp) (copyAl_same E hs)⟩
  | copyAl i j al =>
    simp only [Op.run, leaves_bind, leaves_get, leaves_ite]
    exact ⟨fun _ => trivial, fun _ => sys_construct_stays (P := fun x => x ∈ [i]) (by simp) (copyAl_same E hs)⟩
  | move i j =>
    simp only [Op.run, leaves_ite]
    exact ⟨fun _ => trivial, fun _ => sys_construct_stays (P := fun x => x ∈ [i, j]) (by simp) (on_same (P := fun x => x ∈ [i, j]) (by simp))⟩
  | moveAl i j al =>
    simp only [Op.run, leaves_ite]
    exact ⟨fun _ => trivial, fun _ => sys_construct_stays (P := fun x => x ∈ [i, j]) (by simp) (on_same (P := fun x => x ∈ [i, j]) (by simp))⟩
  | assign i j =>
    simp only [Op.run, leaves_bind, leaves_get, leaves_ite]
    exact ⟨fun _ x _ => rfl, fun _ => on_same (P := fun x => x ∈ [i]) (by simp)⟩
  | moveAssign i j =>
    simp only [Op.run, leaves_ite]
    exact ⟨fun _ x _ => rfl, fun _ => on2_same (P := fun x => x ∈ [i, j]) (by simp) (by simp)⟩
  | swap i j =>
    simp only [Op.run, leaves_ite]
    exact ⟨fun _ x _ => rfl, fun _ => on2_same (P := fun x => x ∈ [i, j]) (by simp) (by simp)⟩
  | insertColl i j f l =>
    simp only [Op.run, leaves_bind, leaves_get, leaves_ite]
    exact ⟨fun _ => trivial, fun _ => on_same (P := fun x => x ∈ [i]) (by simp)⟩
  | insertHintColl i j h f l =>
    simp only [Op.run, leaves_bind, leaves_get, leaves_ite]
    exact ⟨fun _ => trivial, fun _ => on_same (P := fun x => x ∈ [i]) (by simp)⟩
  | insertLocalColl i j f l =>
    simp only [Op.run, leaves_bind, leaves_get, leaves_ite]
    exact ⟨fun _ => trivial, fun _ => on_same (P := fun x => x ∈ [i]) (by simp)⟩
  | insertHintLocalColl i j h f l =>
    simp only [Op.run, leaves_bind, leaves_get, leaves_ite]
    exact ⟨fun _ => trivial, fun _ => on_same (P := fun x => x ∈ [i]) (by simp)⟩

end Coll
end PolyColl
