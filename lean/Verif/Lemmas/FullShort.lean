import Verif.Lemmas.Short
import Verif.Lemmas.MendSplit
/-!
# Emplacing in a full segment of an `any_collection` after a failure

The segment has to be enlarged, so its index is built anew.
-/

namespace PolyColl
open Prog

namespace Split
variable {V : Type} (E : Env V)

theorem prereserve_weak (x : Split V) (w : World) (h : x.Weak E w) (hf : x.s.size = x.s.cap) :
    Runs (prereserve E) x w
      (fun _ x' w' => x'.Inv E w' ∧ Frame x x' ∧ x'.s.elems = x.s.elems ∧ w.next ≤ w'.next ∧ x'.s.size < x'.s.cap ∧
        Vec.Grown w x.s x'.s ∧ Vec.Grown w x.i x'.i)
      (fun _ _ _ => True) := by
  have hg := growth_gt x.s.size (E.maxSize x.ty)
  have hc : x.s.cap < growth x.s.size (E.maxSize x.ty) := by omega
  have hr := (reserve_weak E (growth x.s.size (E.maxSize x.ty)) x w h)
  unfold prereserve expand
  rw [runs_bind, runs_get, if_pos hf, runs_bind, runs_get]
  unfold reserve at hr
  simp only [runs_bind, runs_get, decide_eq_true_eq, hc, if_true] at hr
  simp only [runs_bind, onI, onS, runs_zoom] at hr ⊢
  refine hr.mono ?_ (fun _ _ _ _ => trivial)
  intro _ i' w1 h1
  refine h1.mono ?_ (fun _ _ _ _ => trivial)
  intro _ s' w2 h2
  refine h2.mono ?_ (fun _ _ _ _ => trivial)
  intro _ x' w3 h3
  simp only [retSentinel, runs_bind, runs_get, runs_pure] at h3
  obtain ⟨-, h4, h5, h6, h7, h8, -, h9⟩ := h3
  obtain ⟨h9, h10⟩ := h9 trivial
  have hs : x'.s.size = x.s.size := by simp [Vec.size, h5]
  exact ⟨h9, h4, h5, h6, by omega, h7, h8⟩

theorem pushBack_full (src : Src V) (v : V) (x : Split V) (w : World) (h : x.Weak E w) (hf : x.s.size = x.s.cap) (hv : src.val x.s = some v) (hx : src.ext = true) :
    Runs (pushBack E src) x w
      (fun r x' w' => x'.Inv E w' ∧ Frame x x' ∧ x'.s.elems = x.s.elems ++ [v] ∧ w.next ≤ w'.next ∧ Vec.Grown w x.s x'.s ∧ Vec.Grown w x.i x'.i ∧
        r = (x'.i.ptr x.s.size, x'.sentinel))
      (fun _ _ _ => True) := by
  unfold pushBack
  rw [runs_bind]
  refine (prereserve_weak E x w h hf).mono ?_ (fun _ _ _ _ => trivial)
  rintro _ x1 w1 ⟨a1, a2, a3, a4, a5, a6, a7⟩
  have hp := pushBack_runs E src v x1 w1 a1 (by rw [Src.val_ext hx x1.s x.s, hv]) (Or.inl hx)
  unfold pushBack prereserve at hp
  rw [runs_bind, runs_bind, runs_get, if_neg (by omega)] at hp
  have hp := runs_pure.1 hp
  refine hp.mono ?_ (fun _ _ _ _ => trivial)
  rintro r x2 w2 ⟨b, rfl, -⟩
  have hs : x1.s.size = x.s.size := by simp [Vec.size, a3]
  refine ⟨b.inv, a2.trans b.frame, ?_, Nat.le_trans a4 b.next, a6.trans b.gs a4, a7.trans b.gi a4, by rw [hs]⟩
  rw [b.elems, a3, hs]
  simp [Vec.size]

end Split

namespace Seg
variable {V : Type} (E : Env V)

theorem pushBack_full (src : Src V) (v : V) (x : Seg V) (w : World) (h : x.Weak E w) (hk : x.kind = .split) (hf : x.size = x.capacity)
    (hv : src.val x.be.store = some v) (hx : src.ext = true) :
    Runs (pushBack E src) x w
      (fun r x' w' => x'.Inv E w' ∧ Step w x x' ∧ x'.elems = x.elems ++ [v] ∧ w.next ≤ w'.next ∧ r = x'.base x.size)
      (fun _ _ _ => True) := by
  obtain ⟨be, snt⟩ := x
  cases be with
  | packed y => cases hk
  | split y =>
    unfold pushBack
    rw [runs_filterRange]
    refine Backend.run_split.2 ((Split.pushBack_full E src v y w h hf hv hx).mono ?_ (fun _ _ _ _ => trivial))
    rintro r y' w' ⟨a1, a2, a3, a4, a5, a6, rfl⟩
    exact ⟨⟨a1, rfl⟩, stepSplit a2 a5 a6, a3, a4, rfl⟩

end Seg

namespace Coll
variable {V : Type} (E : Env V)

theorem emplace_full {c : Coll V} {w : World} (hc : c.Weak E w) {n : Node V} (hn : n ∈ c.map.nodes) (ho : ∀ a ∈ c.map.nodes, a.id ≠ n.id → a.seg.Inv E w)
    (hk : n.seg.kind = .split) (hf : n.seg.size = n.seg.capacity) {u : TI} (hu : E.tiTy u = n.seg.ty) {src : Src V} {v : V}
    (hx : src.ext = true) (hv : src.val Vec.nil = some v) :
    Runs (emplace E u src) c w
      (fun r c' w' => c'.Inv E w' ∧ c'.kind = c.kind ∧ c'.At E r (some (n.seg.ty, n.seg.size)) ∧ c'.abs = c.abs.update n.seg.ty (fun _ => n.seg.elems ++ [v]))
      (fun _ _ _ => True) := by
  unfold emplace
  simp only [runs_bind]
  refine (forT_runs E u c w hc.map).mono ?_ (fun _ _ _ _ => trivial)
  rintro it c1 w1 ⟨m, ens, href⟩
  obtain ⟨hsame, hmem⟩ := ens.old E hc.map (hu ▸ mem_types hn)
  have hm : m = n := eq_of_nodup (hc.map.nodup_ty E) hmem hn (ens.ty.trans hu)
  subst hm
  have hg := ens.good E (stable_weak E) hc
  have huse := href.use E
  rw [runs_onSeg E ens.inv.ids href, runs_downcast ens.ty]
  refine (Seg.pushBack_full E src v m.seg w1 (hg.mem.segs m ens.mem) hk hf (by rw [val_ext hx _ Vec.nil, hv]) hx).mono ?_ (fun _ _ _ _ => trivial)
  rintro p s w2 ⟨h1, h2, h3, h4, rfl⟩
  have hput := Good.put E (stable_weak E) hg ens.mem h2 h4 (h1.core.weak E)
  have hinv : (c1.put m s).Inv E w2 := by
    refine ⟨hput.map, ⟨fun a ha => ?_, hput.mem.disj, hput.mem.lt⟩, hput.pos⟩
    rcases (TMap.mem_put_iff hg.map.ids ens.mem).1 ha with ⟨ha, hne⟩ | rfl
    · exact (ho a (hsame.nodes ▸ ha) hne).weaken E (Nat.le_trans ens.next h4)
    · exact h1
  have hu' := put_use_self E (s := s) huse
  have hsz : m.seg.size < s.size := by
    rw [Seg.size_eq s, h3, Seg.size_eq]
    simp
  refine (retIter_runs E hinv hu' (k := m.seg.size) (Nat.le_of_lt hsz) (R := fun _ _ _ => False)).mono ?_ (fun _ _ _ _ => trivial)
  rintro g c' w'' ⟨rfl, rfl, hat⟩
  rw [norm_node E hinv hu'.mem, if_pos hsz] at hat
  have ht : s.ty = m.seg.ty := h2.ty
  refine ⟨hinv, ens.kind, ht ▸ hat, ?_⟩
  rw [put_abs E hg.map ens.mem ht, h3]
  unfold abs TMap.abs
  rw [hsame.nodes]

end Coll
end PolyColl
