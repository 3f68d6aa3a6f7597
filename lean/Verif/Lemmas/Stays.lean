import Verif.Lemmas.GoodHistory
/-! # What an operation leaves alone -/

namespace PolyColl
open Prog

/-- The operation constructs, assigns, moves from or swaps collection `x`. -/
def Op.Replaces {V : Type} : Op V → Nat → Prop
  | .create i _, x | .fromRange i _ _, x | .fromTerminal i _ _ _ _, x | .fromColl i _ _ _ _, x | .fromLocalColl i _ _ _ _, x | .copy i _, x | .copyAl i _ _, x | .assign i _, x => x = i
  | .move i j, x | .moveAl i j _, x | .moveAssign i j, x | .swap i j, x => x = i ∨ x = j
  | _, _ => False

namespace Coll
variable {V : Type} (E : Env V) {k : Kind}

theorem sys_on_stays {α : Type} {i : Nat} {p : Prog (Coll V) α} {s : Sys V} {w : World}
    (hp : Leaves p (s i) w (fun _ c _ => Stays (s i) c) (fun _ c _ => Stays (s i) c)) :
    Leaves (Sys.on i p) s w (fun _ s' _ => ∀ x, Stays (s x) (s' x)) (fun _ s' _ => ∀ x, Stays (s x) (s' x)) := by
  unfold Sys.on
  rw [leaves_zoom]
  have key : ∀ c, Stays (s i) c → ∀ x, Stays (s x) (s.put i c x) := by
    intro c h x
    unfold Sys.put
    by_cases hx : x = i
    · subst hx; rw [if_pos rfl]; exact h
    · rw [if_neg hx]; exact Stays.refl _
  exact hp.mono (fun _ c _ => key c) (fun _ c _ => key c)

/-- Collections that are not constructed, assigned, moved from or swapped keep their registered
types, their allocator and, unless a type is registered, the order of their segments. -/
theorem run_stays {sub : Ty → TI} (hsub : ∀ t, E.tiTy (sub t) = t) (op : Op V) (ha : ∀ a ∈ op.args, Coll.Arg.OK E a) (s : Sys V) (w : World)
    (hs : SysInv E k s w) :
    Leaves (op.run E k sub) s w (fun _ s' _ => ∀ x, ¬ op.Replaces x → Stays (s x) (s' x)) (fun _ s' _ => ∀ x, ¬ op.Replaces x → Stays (s x) (s' x)) := by
  have up : ∀ {p : Prog (Sys V) Unit} {P : Nat → Prop},
      Leaves p s w (fun _ s' _ => ∀ x, ¬ P x → s' x = s x) (fun _ s' _ => ∀ x, ¬ P x → s' x = s x) →
      Leaves p s w (fun _ s' _ => ∀ x, ¬ P x → Stays (s x) (s' x)) (fun _ s' _ => ∀ x, ¬ P x → Stays (s x) (s' x)) := fun h =>
    h.mono (fun _ s' _ h x hx => by rw [h x hx]; exact Stays.refl _) (fun _ s' _ h x hx => by rw [h x hx]; exact Stays.refl _)
  have all : ∀ {p : Prog (Sys V) Unit} {P : Nat → Prop},
      Leaves p s w (fun _ s' _ => ∀ x, Stays (s x) (s' x)) (fun _ s' _ => ∀ x, Stays (s x) (s' x)) →
      Leaves p s w (fun _ s' _ => ∀ x, ¬ P x → Stays (s x) (s' x)) (fun _ s' _ => ∀ x, ¬ P x → Stays (s x) (s' x)) := fun h =>
    h.mono (fun _ s' _ h x _ => h x) (fun _ s' _ h x _ => h x)
  have refl : ∀ x, Stays (s x) (s x) := fun x => Stays.refl _
  cases op with
  | on i op =>
    exact all (sys_on_stays (((op.run_keeps E ha).leaves (hs.1 i)).mono (fun _ _ _ h => h.2.1) (fun _ _ _ h => h.2.1)))
  | create i al => exact up (sys_construct_stays (P := fun x => x = i) rfl (fun x _ => rfl))
  | fromRange i al as => exact up (build_stays (P := fun x => x = i) rfl)
  | fromTerminal i al fwd t srcs => exact up (build_stays (P := fun x => x = i) rfl)
  | fromColl i j al f l =>
    simp only [Op.run, leaves_bind, leaves_get, leaves_ite]
    exact ⟨fun _ => trivial, fun _ => up (build_stays (P := fun x => x = i) rfl)⟩
  | fromLocalColl i j al f l =>
    simp only [Op.run, leaves_bind, leaves_get, leaves_ite]
    exact ⟨fun _ => trivial, fun _ => up (build_stays (P := fun x => x = i) rfl)⟩
  | copy i j =>
    simp only [Op.run, leaves_bind, leaves_get, leaves_ite]
    exact ⟨fun _ => trivial, fun _ => up (sys_construct_stays (P := fun x => x = i) rfl (copyAl_same E hs))⟩
  | copyAl i j al =>
    simp only [Op.run, leaves_bind, leaves_get, leaves_ite]
    exact ⟨fun _ => trivial, fun _ => up (sys_construct_stays (P := fun x => x = i) rfl (copyAl_same E hs))⟩
  | move i j =>
    simp only [Op.run, leaves_ite]
    exact ⟨fun _ => trivial, fun _ => up (sys_construct_stays (P := fun x => x = i ∨ x = j) (Or.inl rfl) (on_same (P := fun x => x = i ∨ x = j) (Or.inr rfl)))⟩
  | moveAl i j al =>
    simp only [Op.run, leaves_ite]
    exact ⟨fun _ => trivial, fun _ => up (sys_construct_stays (P := fun x => x = i ∨ x = j) (Or.inl rfl) (on_same (P := fun x => x = i ∨ x = j) (Or.inr rfl)))⟩
  | assign i j =>
    simp only [Op.run, leaves_bind, leaves_get, leaves_ite]
    exact ⟨fun _ x _ => refl x, fun _ => up (on_same (P := fun x => x = i) rfl)⟩
  | moveAssign i j =>
    simp only [Op.run, leaves_ite]
    exact ⟨fun _ x _ => refl x, fun _ => up (on2_same (P := fun x => x = i ∨ x = j) (Or.inl rfl) (Or.inr rfl))⟩
  | swap i j =>
    simp only [Op.run, leaves_ite]
    exact ⟨fun _ x _ => refl x, fun _ => up (on2_same (P := fun x => x = i ∨ x = j) (Or.inl rfl) (Or.inr rfl))⟩
  | insertColl i j f l =>
    simp only [Op.run, leaves_bind, leaves_get, leaves_ite]
    refine ⟨fun _ => trivial, fun _ => all (sys_on_stays ?_)⟩
    unfold insertColl
    simp only [leaves_bind, leaves_ofOption]
    intro l' hl
    exact ((insertFrom_keeps E l' (collect_ok E hsub (hs.1 j).2 hl)).leaves (hs.1 i)).mono (fun _ _ _ h => h.2.1) (fun _ _ _ h => h.2.1)
  | insertHintColl i j h f l =>
    simp only [Op.run, leaves_bind, leaves_get, leaves_ite]
    refine ⟨fun _ => trivial, fun _ => all (sys_on_stays ?_)⟩
    unfold insertHintColl Prog.drop
    simp only [leaves_bind, leaves_ofOption, leaves_pure]
    intro l' hl
    exact ((insertHintFrom_keeps E l' (collect_ok E hsub (hs.1 j).2 hl) h).leaves (hs.1 i)).mono (fun _ _ _ h => h.2.1) (fun _ _ _ h => h.2.1)
  | insertLocalColl i j f l =>
    simp only [Op.run, leaves_bind, leaves_get, leaves_ite]
    refine ⟨fun _ => trivial, fun _ => all (sys_on_stays ?_)⟩
    unfold insertLocalColl
    simp only [leaves_bind, leaves_ofOption]
    intro r hl
    exact ((insertFromLocal_keeps E _ r.1 r.2 (collectLocal_ok E (hs.1 j).2 hl) (by rw [hsub])).leaves (hs.1 i)).mono
      (fun _ _ _ h => h.2.1) (fun _ _ _ h => h.2.1)
  | insertHintLocalColl i j h f l =>
    simp only [Op.run, leaves_bind, leaves_get, leaves_ite]
    refine ⟨fun _ => trivial, fun _ => all (sys_on_stays ?_)⟩
    unfold insertHintLocalColl Prog.drop
    simp only [leaves_bind, leaves_ofOption, leaves_pure]
    intro r hl
    exact ((insertHintFromLocal_keeps E h _ r.1 r.2 (collectLocal_ok E (hs.1 j).2 hl) (by rw [hsub])).leaves (hs.1 i)).mono
      (fun _ _ _ h => h.2.1) (fun _ _ _ h => h.2.1)

end Coll
end PolyColl
