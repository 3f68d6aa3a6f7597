import Verif.Model.Collection
import Verif.Lemmas.SegmentOps
/-! # The type map: invariant and lookup -/

namespace PolyColl
open Prog

theorem find?_nodup {α β : Type} [DecidableEq β] {l : List α} {f : α → β} (h : (l.map f).Nodup) {a : α} (ha : a ∈ l) :
    l.find? (fun b => f b == f a) = some a := by
  induction l with
  | nil => simp at ha
  | cons b l ih =>
    simp only [List.map_cons, List.nodup_cons] at h
    rcases List.mem_cons.1 ha with rfl | ha
    · simp
    · have : f b ≠ f a := fun e => h.1 (e ▸ List.mem_map_of_mem ha)
      rw [List.find?_cons_of_neg (by simpa using this)]
      exact ih h.2 ha

theorem eq_of_nodup {α β : Type} {l : List α} {f : α → β} (h : (l.map f).Nodup) {a b : α} (ha : a ∈ l) (hb : b ∈ l)
    (e : f a = f b) : a = b := by
  induction l with
  | nil => simp at ha
  | cons c l ih =>
    simp only [List.map_cons, List.nodup_cons] at h
    rcases List.mem_cons.1 ha with rfl | ha' <;> rcases List.mem_cons.1 hb with rfl | hb'
    · rfl
    · exact absurd (e ▸ List.mem_map_of_mem hb') h.1
    · exact absurd (e ▸ List.mem_map_of_mem ha') h.1
    · exact ih h.2 ha' hb'

namespace TMap
variable {V : Type} (E : Env V)

/-- An up-to-date iterator to node `n`. -/
structure Ref (m : TMap V) (it : MapIt) (n : Node V) : Prop where
  mem : n ∈ m.nodes
  node : it.node = some n.id
  gen : it.gen = m.gen

/-- Invariant of the map: types are unique and describe the segments; the cache is right. -/
structure Inv (k : Kind) (m : TMap V) (w : World) : Prop where
  ids : (m.nodes.map (·.id)).Nodup
  lt : ∀ n ∈ m.nodes, n.id < w.next
  tys : (m.nodes.map fun n => E.tiTy n.key).Nodup
  ty : ∀ n ∈ m.nodes, n.seg.ty = E.tiTy n.key
  al : ∀ n ∈ m.nodes, n.seg.al = m.al
  objAl : ∀ n ∈ m.nodes, n.seg.objAl = m.al
  kind : ∀ n ∈ m.nodes, n.seg.kind = k
  cache : ∀ p ∈ m.cache, ∃ n, m.Ref p.2 n ∧ E.tiTy n.key = E.tiTy p.1

theorem Inv.weaken {k : Kind} {m : TMap V} {w w' : World} (h : m.Inv E k w) (hw : w.next ≤ w'.next) : m.Inv E k w' :=
  { h with lt := fun n hn => Nat.lt_of_lt_of_le (h.lt n hn) hw }

theorem Ref.usable {m : TMap V} {it : MapIt} {n : Node V} (h : m.Ref it n) : m.usable E it = true := by
  simp [TMap.usable, h.gen]

theorem Ref.node? {m : TMap V} {it : MapIt} {n : Node V} (h : m.Ref it n) (hi : (m.nodes.map (·.id)).Nodup) :
    m.node? E it = some n := by
  simp only [TMap.node?, h.usable E, if_true, h.node]
  exact find?_nodup (f := fun n : Node V => n.id) hi h.mem

theorem Ref.eq {m : TMap V} {it : MapIt} {n : Node V} (h : m.Ref it n) : it = m.itTo n := by
  cases it; have := h.node; have := h.gen; simp_all [itTo]

theorem ref_itTo {m : TMap V} {n : Node V} (h : n ∈ m.nodes) : m.Ref (m.itTo n) n := ⟨h, rfl, rfl⟩

/-- What a look-up for `key` yields. -/
def Found (m : TMap V) (key : TI) (it : MapIt) : Prop :=
  (∃ n, m.Ref it n ∧ E.tiTy n.key = E.tiTy key) ∨ (it = m.end ∧ ∀ n ∈ m.nodes, E.tiTy n.key ≠ E.tiTy key)

theorem mapFind_found (m : TMap V) (key : TI) : m.Found E key (m.mapFind E key) := by
  unfold mapFind
  cases h : m.nodes.find? (fun n => E.tiTy n.key == E.tiTy key) with
  | some n =>
    left
    have h1 := List.find?_some h
    have h2 := List.mem_of_find?_eq_some h
    exact ⟨n, ref_itTo h2, by simpa using h1⟩
  | none =>
    right
    refine ⟨rfl, fun n hn => ?_⟩
    have := List.find?_eq_none.1 h n hn
    simpa using this

theorem lookup_mem {α β : Type} [BEq α] [LawfulBEq α] {l : List (α × β)} {a : α} {b : β} (h : l.lookup a = some b) : (a, b) ∈ l := by
  induction l with
  | nil => simp at h
  | cons p l ih =>
    obtain ⟨a', b'⟩ := p
    simp only [List.lookup_cons] at h
    by_cases e : a == a'
    · have e' := eq_of_beq e
      simp only [e] at h
      grind
    · simp only [e] at h
      exact List.mem_cons_of_mem _ (ih h)

theorem findConst_found {k : Kind} {m : TMap V} {w : World} (h : m.Inv E k w) (key : TI) :
    m.Found E key (m.findConst E key) := by
  unfold findConst
  cases hl : m.cache.lookup key with
  | some it => exact Or.inl (h.cache _ (lookup_mem hl))
  | none => exact mapFind_found E m key

theorem Found.notin {m : TMap V} {key : TI} {it : MapIt} (h : m.Found E key it) (hn : it.node = none) :
    ∀ n ∈ m.nodes, E.tiTy n.key ≠ E.tiTy key := by
  rcases h with ⟨n, hr, _⟩ | h
  · rw [hr.node] at hn; simp at hn
  · exact h.2

theorem Found.ref {m : TMap V} {key : TI} {it : MapIt} (h : m.Found E key it) (hn : it.node ≠ none) :
    ∃ n, m.Ref it n ∧ E.tiTy n.key = E.tiTy key := by
  rcases h with h | h
  · exact h
  · rw [h.1] at hn; exact absurd rfl hn

/-- Same contents, possibly another cache. -/
structure SameNodes (m m' : TMap V) : Prop where
  nodes : m'.nodes = m.nodes
  buckets : m'.buckets = m.buckets
  gen : m'.gen = m.gen
  al : m'.al = m.al

theorem SameNodes.refl (m : TMap V) : SameNodes m m := ⟨rfl, rfl, rfl, rfl⟩

theorem SameNodes.trans {m m' m'' : TMap V} (h : SameNodes m m') (h' : SameNodes m' m'') : SameNodes m m'' :=
  ⟨h'.1.trans h.1, h'.2.trans h.2, h'.3.trans h.3, h'.4.trans h.4⟩

theorem Ref.congr {m m' : TMap V} {it : MapIt} {n : Node V} (h : m.Ref it n) (hm : SameNodes m m') : m'.Ref it n :=
  ⟨hm.nodes ▸ h.mem, h.node, by rw [hm.gen]; exact h.gen⟩

theorem Found.congr {m m' : TMap V} {key : TI} {it : MapIt} (h : m.Found E key it) (hm : SameNodes m m') : m'.Found E key it := by
  rcases h with ⟨n, hr, hk⟩ | ⟨h1, h2⟩
  · exact Or.inl ⟨n, hr.congr hm, hk⟩
  · exact Or.inr ⟨by rw [h1]; simp [TMap.end, hm.gen], by rw [hm.nodes]; exact h2⟩

/-- An allocation failure. -/
def BadAlloc (e : Exc) : Prop := e = .badAlloc ∧ ∃ n, E.fault n = true

theorem Inv.cons_cache {k : Kind} {m : TMap V} {w : World} (h : m.Inv E k w) {key : TI} {it : MapIt} {n : Node V}
    (hr : m.Ref it n) (hk : E.tiTy n.key = E.tiTy key) : { m with cache := m.cache ++ [(key, it)] }.Inv E k w :=
  ⟨h.ids, h.lt, h.tys, h.ty, h.al, h.objAl, h.kind, by
    intro p hp
    simp only [List.mem_append, List.mem_singleton] at hp
    rcases hp with hp | rfl
    · obtain ⟨n, h1, h2⟩ := h.cache p hp
      exact ⟨n, ⟨h1.1, h1.2, h1.3⟩, h2⟩
    · exact ⟨n, ⟨hr.1, hr.2, hr.3⟩, hk⟩⟩

theorem cacheInsert_runs (k : Kind) (key : TI) (it : MapIt) (n : Node V) (m : TMap V) (w : World) (h : m.Inv E k w)
    (hr : m.Ref it n) (hk : E.tiTy n.key = E.tiTy key) :
    Runs (cacheInsert E key it) m w
      (fun _ m' w' => m'.Inv E k w' ∧ SameNodes m m' ∧ w.next ≤ w'.next)
      (fun e m' w' => m' = m ∧ w.next ≤ w'.next ∧ BadAlloc E e) := by
  unfold cacheInsert
  simp only [runs_bind, runs_get]
  cases hl : m.cache.lookup key with
  | some it' => exact ⟨h, SameNodes.refl m, Nat.le_refl _⟩
  | none =>
    simp only [runs_bind, E.runs_alloc, runs_set]
    refine ⟨fun hf => ⟨by trivial, by simp, rfl, _, hf⟩, fun _ => ⟨?_, ⟨rfl, rfl, rfl, rfl⟩, by simp⟩⟩
    exact (h.cons_cache E hr hk).weaken E (by simp)

theorem find_runs (k : Kind) (key : TI) (m : TMap V) (w : World) (h : m.Inv E k w) :
    Runs (find E key) m w
      (fun it m' w' => m'.Inv E k w' ∧ SameNodes m m' ∧ w.next ≤ w'.next ∧ m.Found E key it)
      (fun e m' w' => m' = m ∧ w.next ≤ w'.next ∧ BadAlloc E e) := by
  unfold find
  simp only [runs_bind, runs_get]
  cases hl : m.cache.lookup key with
  | some it' => exact ⟨h, SameNodes.refl m, Nat.le_refl _, Or.inl (h.cache _ (lookup_mem hl))⟩
  | none =>
    have hf := mapFind_found E m key
    simp only [runs_ite, runs_bind, runs_pure]
    refine ⟨fun hn => ?_, fun _ => ⟨h, SameNodes.refl m, Nat.le_refl _, hf⟩⟩
    obtain ⟨n, hr, hk⟩ := hf.ref E hn
    refine (cacheInsert_runs E k key _ n m w h hr hk).mono ?_ (fun _ _ _ h => h)
    rintro _ m' w' ⟨h1, h2, h3⟩
    exact ⟨h1, h2, h3, hf⟩

theorem rebuildCache_runs (k : Kind) (m : TMap V) (w : World)
    (h : { m with cache := [] }.Inv E k w) (hc : ∀ p ∈ m.cache, ∃ n ∈ m.nodes, E.tiTy n.key = E.tiTy p.1) :
    Runs (rebuildCache E) m w
      (fun _ m' w' => m'.Inv E k w' ∧ SameNodes m m' ∧ w' = w) (fun _ _ _ => False) := by
  unfold rebuildCache
  simp only [runs_bind, runs_get, runs_set]
  refine ⟨{ h with cache := ?_ }, ⟨rfl, rfl, rfl, rfl⟩, by trivial⟩
  intro p hp
  simp only [List.mem_map] at hp
  obtain ⟨q, hq, rfl⟩ := hp
  obtain ⟨n, hn, hk⟩ := hc q hq
  rcases mapFind_found E m q.1 with ⟨n', hr, hk'⟩ | ⟨_, h2⟩
  · exact ⟨n', ⟨hr.1, hr.2, hr.3⟩, hk'⟩
  · exact absurd hk (h2 n hn)

theorem buildCache_runs (k : Kind) (c : List (TI × MapIt)) : ∀ (m : TMap V) (w : World), m.Inv E k w →
    (∀ p ∈ c, ∃ n ∈ m.nodes, E.tiTy n.key = E.tiTy p.1) →
    Runs (buildCache E c) m w
      (fun _ m' w' => m'.Inv E k w' ∧ SameNodes m m' ∧ w.next ≤ w'.next)
      (fun e m' w' => m'.Inv E k w' ∧ SameNodes m m' ∧ w.next ≤ w'.next ∧ BadAlloc E e) := by
  unfold buildCache
  induction c with
  | nil => intro m w h _; exact ⟨h, SameNodes.refl m, Nat.le_refl _⟩
  | cons p c ih =>
    intro m w h hc
    simp only [runs_each_cons, runs_bind, runs_get]
    obtain ⟨n, hn, hk⟩ := hc p (by simp)
    rcases mapFind_found E m p.1 with ⟨n', hr, hk'⟩ | ⟨_, h2⟩
    · refine (cacheInsert_runs E k p.1 _ n' m w h hr hk').mono ?_ ?_
      · rintro _ m' w' ⟨h1, h2, h3⟩
        refine (ih m' w' h1 ?_).mono ?_ ?_
        · intro q hq; rw [h2.nodes]; exact hc q (by simp [hq])
        · rintro _ m'' w'' ⟨g1, g2, g3⟩
          exact ⟨g1, h2.trans g2, by omega⟩
        · rintro e m'' w'' ⟨g1, g2, g3, g4⟩
          exact ⟨g1, h2.trans g2, by omega, g4⟩
      · rintro e m' w' ⟨rfl, h2, h3⟩
        exact ⟨h.weaken E h2, SameNodes.refl _, h2, h3⟩
    · exact absurd hk (h2 n hn)

/-! ### Insertion of a new segment -/

/-- Where the memory of the segments is: segments are fine and do not share buffers. -/
structure Mem (P : Seg V → World → Prop) (m : TMap V) (w : World) : Prop where
  segs : ∀ n ∈ m.nodes, P n.seg w
  disj : m.nodes.Pairwise (fun a b => ∀ x ∈ a.seg.blocks, x ∈ b.seg.blocks → x = 0)
  lt : ∀ n ∈ m.nodes, ∀ x ∈ n.seg.blocks, x < w.next

/-- The effect of `insert` on the nodes. -/
inductive Added (m : TMap V) (w : World) (t : Ty) (n : Node V) (m' : TMap V) : Prop where
  | old (h : SameNodes m m') (hn : n ∈ m.nodes)
  | new (h : ∀ a ∈ m.nodes, E.tiTy a.key ≠ t) (hp : m'.nodes.Perm (m.nodes ++ [n])) (hid : w.next ≤ n.id)
      (he : n.seg.elems = []) (hal : m'.al = m.al) (hb : n.seg.New w) (hg : m.gen ≤ m'.gen)

theorem Added.al {m m' : TMap V} {w : World} {t : Ty} {n : Node V} (h : Added E m w t n m') : m'.al = m.al := by
  cases h with
  | old h => exact h.al
  | new _ _ _ _ h => exact h

theorem Added.mem {m m' : TMap V} {w : World} {t : Ty} {n : Node V} (h : Added E m w t n m') : n ∈ m'.nodes := by
  cases h with
  | old h hn => rw [h.nodes]; exact hn
  | new _ hp => exact hp.mem_iff.2 (by simp)

theorem Added.congr {m m' m'' : TMap V} {w : World} {t : Ty} {n : Node V} (h : Added E m w t n m') (hs : SameNodes m' m'') :
    Added E m w t n m'' := by
  cases h with
  | old h hn => exact .old (h.trans hs) hn
  | new h1 h2 h3 h4 h5 h6 h7 => exact .new h1 (hs.nodes ▸ h2) h3 h4 (hs.al.trans h5) h6 (hs.gen ▸ h7)

theorem Added.congr_left {m m' m'' : TMap V} {w : World} {t : Ty} {n : Node V} (hs : SameNodes m m') (h : Added E m' w t n m'') :
    Added E m w t n m'' := by
  cases h with
  | old h hn => exact .old (hs.trans h) (hs.nodes ▸ hn)
  | new h1 h2 h3 h4 h5 h6 h7 => exact .new (hs.nodes ▸ h1) (hs.nodes ▸ h2) h3 h4 (h5.trans hs.al) h6 (hs.gen ▸ h7)

theorem Added.weaken {m m' : TMap V} {w w' : World} {t : Ty} {n : Node V} (h : Added E m w' t n m') (hw : w.next ≤ w'.next) :
    Added E m w t n m' := by
  cases h with
  | old h hn => exact .old h hn
  | new h1 h2 h3 h4 h5 h6 h7 => exact .new h1 h2 (by omega) h4 h5 (fun b hb => (h6 b hb).imp id (by omega)) h7

theorem Mem.mono {P Q : Seg V → World → Prop} {m : TMap V} {w w' : World} (h : m.Mem P w)
    (hpq : ∀ n ∈ m.nodes, P n.seg w → Q n.seg w') (hw : w.next ≤ w'.next) : m.Mem Q w' :=
  ⟨fun n hn => hpq n hn (h.segs n hn), h.disj, fun n hn x hx => Nat.lt_of_lt_of_le (h.lt n hn x hx) hw⟩

theorem Mem.congr {P : Seg V → World → Prop} {m m' : TMap V} {w : World} (h : m.Mem P w) (hs : SameNodes m m') : m'.Mem P w :=
  ⟨hs.nodes ▸ h.segs, hs.nodes ▸ h.disj, hs.nodes ▸ h.lt⟩

theorem Added.mem_inv {P : Seg V → World → Prop} {m m' : TMap V} {w w' : World} {t : Ty} {n : Node V}
    (h : Added E m w t n m') (hm : m.Mem P w) (hP : ∀ s, P s w → P s w') (hw : w.next ≤ w'.next)
    (hn : P n.seg w') (hl : ∀ x ∈ n.seg.blocks, x < w'.next) : m'.Mem P w' := by
  have hm' : m.Mem P w' := hm.mono (fun _ _ h => hP _ h) hw
  cases h with
  | old h => exact hm'.congr h
  | new h1 h2 h3 h4 h5 h6 =>
    refine ⟨?_, ?_, ?_⟩
    · intro a ha
      rcases List.mem_append.1 (h2.mem_iff.1 ha) with ha | ha
      · exact hm'.segs a ha
      · rw [List.mem_singleton.1 ha]; exact hn
    · rw [h2.pairwise_iff (fun {a b} hab x hx hy => hab x hy hx)]
      refine List.pairwise_append.2 ⟨hm.disj, by simp, ?_⟩
      intro a ha b hb x hx hy
      rw [List.mem_singleton.1 hb] at hy
      have := hm.lt a ha x hx
      rcases h6 x hy with h | h
      · exact h
      · omega
    · intro a ha
      rcases List.mem_append.1 (h2.mem_iff.1 ha) with ha | ha
      · exact hm'.lt a ha
      · rw [List.mem_singleton.1 ha]; exact hl

/-- Exceptions of `insert` of an empty segment. -/
def InsExc (t : Ty) (e : Exc) : Prop := ExcFrom E t False (E.TooMany t 1) e

theorem mapEmplace_runs (k : Kind) (key : TI) (x : Seg V) (w0 : World) (m : TMap V) (w : World) (h : m.Inv E k w)
    (hx : x.Core E w) (hf : x.Fresh E) (hty : x.ty = E.tiTy key) (hkd : x.kind = k)
    (hnew : x.New w0) (hw0 : w0.next ≤ w.next) :
    Runs (mapEmplace E key x) m w
      (fun it m' w' => ∃ n, { m' with cache := [] }.Inv E k w' ∧ m'.Ref it n ∧ E.tiTy n.key = E.tiTy key ∧ m'.cache = m.cache ∧
        (m'.gen ≠ m.gen → m'.buckets ≠ m.buckets) ∧
        (n ∈ m.nodes ∨ n.seg.Inv E w') ∧ Added E m w0 (E.tiTy key) n m' ∧ w.next ≤ w'.next)
      (fun e m' w' => m' = m ∧ w.next ≤ w'.next ∧ InsExc E (E.tiTy key) e) := by
  unfold mapEmplace
  simp only [runs_bind, runs_get, runs_locally, E.runs_alloc, runs_pure]
  refine ⟨fun hff => ⟨by trivial, by simp, Or.inl ⟨rfl, _, hff⟩⟩, fun _ => ?_⟩
  refine (Seg.moveAl_runs E m.al x ⟨w.next + 1, w.tick + 1⟩ (Backend.Inv.weaken E hx (by simp)) (fun _ => hf)).mono ?_ ?_
  · rintro s x' w' ⟨a1, a2, a3, a4, a5, a6, a7, a8, a9, a10⟩
    simp only at a7
    cases hfd : m.nodes.find? (fun n => E.tiTy n.key == E.tiTy key) with
    | some n =>
      have h1 := List.find?_some hfd
      have h2 := List.mem_of_find?_eq_some hfd
      refine ⟨n, ⟨h.ids, fun a ha => ?_, h.tys, h.ty, h.al, h.objAl, h.kind, by simp⟩, ref_itTo h2, by simpa using h1, rfl, by simp, Or.inl h2, .old (SameNodes.refl m) h2, by omega⟩
      have := h.lt a ha; omega
    | none =>
      have hno : ∀ a ∈ m.nodes, E.tiTy a.key ≠ E.tiTy key := fun a ha => by
        have := List.find?_eq_none.1 hfd a ha
        simpa using this
      have fin := fun (w'' : World) (hw'' : w'.next ≤ w''.next) (c g : Nat) (hg : g ≠ m.gen → c ≠ m.buckets) (hge : m.gen ≤ g) => show
        ∃ n, (⟨E.shuffle w'.tick (m.nodes ++ [⟨w.next, key, s⟩]), c, g, m.al, []⟩ : TMap V).Inv E k w'' ∧
            (⟨E.shuffle w'.tick (m.nodes ++ [⟨w.next, key, s⟩]), c, g, m.al, m.cache⟩ : TMap V).Ref ⟨some w.next, g⟩ n ∧
            E.tiTy n.key = E.tiTy key ∧ True ∧ (g ≠ m.gen → c ≠ m.buckets) ∧ (n ∈ m.nodes ∨ n.seg.Inv E w'') ∧
            Added E m w0 (E.tiTy key) n ⟨E.shuffle w'.tick (m.nodes ++ [⟨w.next, key, s⟩]), c, g, m.al, m.cache⟩ ∧ w.next ≤ w''.next from by
        have hp := E.shuffle_perm w'.tick (m.nodes ++ [⟨w.next, key, s⟩])
        refine ⟨⟨w.next, key, s⟩, ⟨?_, ?_, ?_, ?_, ?_, ?_, ?_, by simp⟩, ⟨?_, rfl, rfl⟩, rfl, trivial, hg, Or.inr (a1.weaken E hw''), .new hno hp hw0 ?_ rfl ?_ hge, by omega⟩
        · rw [(hp.map _).nodup_iff, List.map_append, List.nodup_append]
          refine ⟨h.ids, by simp, ?_⟩
          intro a ha b hb
          simp only [List.map_cons, List.map_nil, List.mem_singleton, List.mem_map] at ha hb
          obtain ⟨c, hc, rfl⟩ := ha
          have := h.lt c hc
          omega
        · intro a ha
          rcases List.mem_append.1 (hp.mem_iff.1 ha) with ha | ha
          · have := h.lt a ha; omega
          · rw [List.mem_singleton.1 ha]; simp only; omega
        · rw [(hp.map _).nodup_iff, List.map_append, List.nodup_append]
          refine ⟨h.tys, by simp, ?_⟩
          intro a ha b hb
          simp only [List.map_cons, List.map_nil, List.mem_singleton, List.mem_map] at ha hb
          obtain ⟨c, hc, rfl⟩ := ha
          rw [hb]; exact hno c hc
        · intro a ha
          rcases List.mem_append.1 (hp.mem_iff.1 ha) with ha | ha
          · exact h.ty a ha
          · rw [List.mem_singleton.1 ha]; exact a3.trans hty
        · intro a ha
          rcases List.mem_append.1 (hp.mem_iff.1 ha) with ha | ha
          · exact h.al a ha
          · rw [List.mem_singleton.1 ha]; exact a4
        · intro a ha
          rcases List.mem_append.1 (hp.mem_iff.1 ha) with ha | ha
          · exact h.objAl a ha
          · rw [List.mem_singleton.1 ha]; exact a5
        · intro a ha
          rcases List.mem_append.1 (hp.mem_iff.1 ha) with ha | ha
          · exact h.kind a ha
          · rw [List.mem_singleton.1 ha]; exact a2.trans hkd
        · exact hp.mem_iff.2 (by simp)
        · exact a6.trans hf.1
        · intro b hb
          rcases a8 b hb with h | h | h
          · exact Or.inl h
          · right; simp only at h; omega
          · exact hnew b h.2
      simp only [runs_bind, runs_world, runs_ite, E.runs_alloc, runs_set, runs_pure]
      refine ⟨fun hc => ⟨fun hff => ⟨by trivial, by omega, Or.inl ⟨rfl, _, hff⟩⟩, fun _ => ?_⟩, fun hc => ?_⟩
      · exact fin ⟨w'.next + 1, w'.tick + 1⟩ (by simp) _ _ (fun _ => hc) (by split <;> omega)
      · refine fin w' (by simp) _ _ (fun hg => ?_) (by split <;> omega)
        simp only [ne_eq, Classical.not_not] at hc
        simp [hc] at hg
  · rintro e x' w' ⟨a1, a2, a3, a4⟩
    exact ⟨by trivial, by simp only at a1; omega, by rw [← hty]; exact a3.mono id (by rw [show x.size = x.elems.length from rfl, hf.1]; exact id)⟩

theorem insert_runs (k : Kind) (key : TI) (x : Seg V) (w0 : World) (m : TMap V) (w : World) (h : m.Inv E k w)
    (hx : x.Core E w) (hf : x.Fresh E) (hty : x.ty = E.tiTy key) (hkd : x.kind = k)
    (hnew : x.New w0) (hw0 : w0.next ≤ w.next) :
    Runs (insert E key x) m w
      (fun it m' w' => ∃ n, m'.Inv E k w' ∧ m'.Ref it n ∧ E.tiTy n.key = E.tiTy key ∧
        (n ∈ m.nodes ∨ n.seg.Inv E w') ∧ Added E m w0 (E.tiTy key) n m' ∧ w.next ≤ w'.next)
      (fun e m' w' => m'.Inv E k w' ∧ w.next ≤ w'.next ∧ InsExc E (E.tiTy key) e ∧
        (m' = m ∨ ∃ n, (n ∈ m.nodes ∨ n.seg.Inv E w') ∧ Added E m w0 (E.tiTy key) n m' ∧ E.tiTy n.key = E.tiTy key)) := by
  unfold insert
  simp only [runs_bind, runs_get]
  refine (mapEmplace_runs E k key x w0 m w h hx hf hty hkd hnew hw0).mono ?_ ?_
  · rintro it m1 w1 ⟨n, a1, a2, a3, a4, a5, a6, a7, a8⟩
    have key : ∀ (m2 : TMap V), m2.Inv E k w1 → SameNodes m1 m2 → _ := fun m2 hi hs =>
      cacheInsert_runs E k key it n m2 w1 hi (a2.congr hs) a3
    have hin : ∀ a ∈ m.nodes, ∃ b ∈ m1.nodes, E.tiTy b.key = E.tiTy a.key := by
      intro a ha
      refine ⟨a, ?_, rfl⟩
      cases a7 with
      | old h => rw [h.nodes]; exact ha
      | new _ hp => exact hp.mem_iff.2 (by simp [ha])
    have hrest : ∀ (m2 : TMap V), m2.Inv E k w1 → SameNodes m1 m2 →
        Runs (cacheInsert E ‹_› it) m2 w1
          (fun _ m' w' => ∃ n, m'.Inv E k w' ∧ m'.Ref it n ∧ E.tiTy n.key = E.tiTy ‹TI› ∧
            (n ∈ m.nodes ∨ n.seg.Inv E w') ∧ Added E m w0 (E.tiTy ‹TI›) n m' ∧ w.next ≤ w'.next)
          (fun e m' w' => m'.Inv E k w' ∧ w.next ≤ w'.next ∧ InsExc E (E.tiTy ‹TI›) e ∧
            (m' = m ∨ ∃ n, (n ∈ m.nodes ∨ n.seg.Inv E w') ∧ Added E m w0 (E.tiTy ‹TI›) n m' ∧ E.tiTy n.key = E.tiTy ‹TI›)) := by
      intro m2 hi hs
      refine (key m2 hi hs).mono ?_ ?_
      · rintro _ m' w' ⟨b1, b2, b3⟩
        exact ⟨n, b1, (a2.congr hs).congr b2, a3, a6.imp id (·.weaken E b3), a7.congr E (hs.trans b2), by omega⟩
      · rintro e m' w' ⟨rfl, b2, b3⟩
        exact ⟨hi.weaken E b2, by omega, Or.inl b3, Or.inr ⟨n, a6.imp id (·.weaken E b2), a7.congr E hs, a3⟩⟩
    simp only [runs_ite, runs_bind, runs_pure]
    refine ⟨fun hc => ?_, fun hc => ?_⟩
    · refine (rebuildCache_runs E k m1 w1 a1 ?_).mono ?_ (fun _ _ _ h => h.elim)
      · intro p hp
        rw [a4] at hp
        obtain ⟨a, ha, hk⟩ := h.cache p hp
        obtain ⟨b, hb, hk'⟩ := hin a ha.mem
        exact ⟨b, hb, hk'.trans hk⟩
      · rintro _ m2 w2 ⟨b1, b2, rfl⟩
        exact hrest m2 b1 b2
    · refine hrest m1 ⟨a1.ids, a1.lt, a1.tys, a1.ty, a1.al, a1.objAl, a1.kind, ?_⟩ (SameNodes.refl _)
      intro p hp
      rw [a4] at hp
      obtain ⟨a, ha, hk⟩ := h.cache p hp
      have hg : m1.gen = m.gen := by
        rcases Nat.decEq m1.gen m.gen with hg | hg
        · exact absurd (a5 hg) hc
        · exact hg
      refine ⟨a, ⟨?_, ha.node, by rw [hg]; exact ha.gen⟩, hk⟩
      cases a7 with
      | old h => rw [h.nodes]; exact ha.mem
      | new _ hp => exact hp.mem_iff.2 (by simp [ha.mem])
  · rintro e m' w' ⟨rfl, a2, a3⟩
    exact ⟨h.weaken E a2, a2, a3, Or.inl rfl⟩

end TMap
end PolyColl
