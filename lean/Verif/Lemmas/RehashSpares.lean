import Verif.Lemmas.GoodHistory
import Verif.Lemmas.Spares
/-! # Which iterators survive an insertion with a hint, be it undefined for some reason or not -/

namespace PolyColl.Coll
open Prog
variable {V : Type} {E : Env V}

/-- `op_spares` if operations with hints are not known to be defined. -/
theorem op_spares_apt (op : COp V) (c : Coll V) (w : World) (hc : c.Inv E w) (hp : op.Apt E c) (u : Ty) (hu : ¬ op.Touches E c u) :
    Leaves (op.run E) c w (fun _ c' _ => Spares E c u c') (fun _ c' _ => Spares E c u c') := by
  by_cases hpre : op.Pre E c
  · exact (op_spares op c w hc hpre u hu).leaves
  have hm := hc.map
  cases op with
  | emplaceHint hint t src =>
    obtain ⟨⟨v, hv⟩, p, hh⟩ := hp
    exact ((emplaceHint_ends E hint p t src v c w hc hv hh).drop.mono (fun _ _ _ ⟨_, h⟩ => h.1.spares hm hu)
      (fun _ _ _ h => h.spares hm hu) id).leaves
  | insertHint hint a =>
    obtain ⟨ha, ⟨v, hv⟩, p, hh⟩ := hp
    exact ((insertHint_ends E hint p a v ha c w hc hv hh).drop.mono (fun _ _ _ ⟨_, h⟩ => h.1.spares hm hu)
      (fun _ _ _ h => h.spares hm hu) id).leaves
  | insertHintRange hint as =>
    have hu : ∀ a ∈ as, u ≠ E.tiTy a.dyn := fun a ha he => hu ⟨a, ha, he⟩
    obtain ⟨⟨p, hh⟩, ha⟩ := hp
    obtain ⟨vs, hv⟩ := mapVals (f := fun a : Arg V => a.src.val Vec.nil) (fun a h => ext_val (ha a h).2)
    exact ((insertHintRange_ends E as hint p vs c w hc hh ha hv).drop.mono (fun _ _ _ ⟨_, ⟨_, h, _⟩, _⟩ => h.spares hc (typed_fst hu))
      (fun _ _ _ h => h.spares hc hu) id).leaves
  | insertHintRangeTerminal hint f t srcs =>
    obtain ⟨⟨p, hh⟩, ha⟩ := hp
    obtain ⟨vs, hv⟩ := mapVals (f := Src.val Vec.nil) (fun a h => ext_val (ha a h))
    refine ((insertHintRangeTerminal_ends E hint p f t srcs vs c w hc hh ha hv).mono ?_ (fun _ _ _ h => h.spares hm hu) id).leaves
    rintro _ c' w' (⟨-, rfl, rfl⟩ | ⟨-, h⟩)
    · exact .refl _ _
    · exact h.spares hm hu
  | _ => exact absurd hp hpre

end PolyColl.Coll
