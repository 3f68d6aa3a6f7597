import Verif.Lemmas.Pieces
import Verif.Lemmas.StdAlg
/-! # The algorithms piece by piece -/

namespace PolyColl
open Prog
namespace Algo
variable {V : Type} (E : Env V) {m : Type → Type} [Monad m] [LawfulMonad m] {σ B O W : Type}
open Coll

/-- What the functors are to be given for the elements of a list. -/
def passed (Ts : List Ty) (l : List (Ty × V)) : List (Passed V) := l.map (Passed.of Ts)

theorem passed_append (Ts : List Ty) (l l' : List (Ty × V)) : passed Ts (l ++ l') = passed Ts l ++ passed Ts l' := List.map_append

theorem passed_length (Ts : List Ty) (l : List (Ty × V)) : (passed Ts l).length = l.length := List.length_map _

theorem rank_add {c : Coll V} {w : World} (h : c.map.Inv E c.kind w) {n : Node V} (hn : n ∈ c.map.nodes) (a k : Nat) :
    c.abs.rank (some (n.seg.ty, a + k)) = c.abs.rank (some (n.seg.ty, a)) + k := by
  obtain ⟨pre, post, hs⟩ := List.append_of_mem hn
  rw [node_rank E h hs, node_rank E h hs]
  omega

theorem base_inj {s : Seg V} {a b : Nat} : s.base a = s.base b ↔ a = b := by
  constructor
  · intro h
    have := congrArg Ptr.off h
    simp only [Seg.base] at this
    omega
  · rintro rfl; rfl

theorem IsPiece.rangeP {c : Coll V} {w : World} (h : c.Core E w) (Ts : List Ty) {i : SegInfo} {n : Node V} {a b : Nat} (hi : IsPiece E c i n a b) :
    ∃ r, Algo.range E c Ts i = some r ∧ IsRange E c r n a ∧ r.vals = passed Ts (sliceOf n.seg a (b - a)) ∧ r.mapit = i.first.mapit :=
  hi.range E h Ts

theorem sliceP_length {Ts : List Ty} {c : Coll V} {i : SegInfo} {n : Node V} {a b : Nat} (hp : IsPiece E c i n a b) :
    (passed Ts (sliceOf n.seg a (b - a))).length = b - a := by
  rw [passed_length]
  have := hp.le
  have := hp.le'
  exact sliceOf_length (by omega)

/-! ### all_of, any_of, none_of, for_each, count_if -/

theorem allOfIn_sim {c : Coll V} {w : World} (h : c.Core E w) (Ts : List Ty) (p : Passed V → m Bool) {f : Bool} {ps : List SegInfo} {r : Nat}
    {l : List (Ty × V)} (hc : Cut E c f ps r l) : Sim Eq (allOfIn E c Ts p ps) (StdAlg.allOf p (passed Ts l)) := by
  induction hc with
  | nil => exact Sim.pure rfl
  | cons hp _ _ _ ih =>
    obtain ⟨rg, h1, -, h3, -⟩ := hp.rangeP E h Ts
    rw [passed_append, StdAlg.allOf_append, ← h3]
    refine Sim.defd h1 (Sim.callBind fun b => ?_)
    exact Sim.ite (fun _ => ih) (fun _ => Sim.pure rfl)

theorem anyOfIn_sim {c : Coll V} {w : World} (h : c.Core E w) (Ts : List Ty) (p : Passed V → m Bool) {f : Bool} {ps : List SegInfo} {r : Nat}
    {l : List (Ty × V)} (hc : Cut E c f ps r l) : Sim Eq (anyOfIn E c Ts p ps) (StdAlg.anyOf p (passed Ts l)) := by
  induction hc with
  | nil => exact Sim.pure rfl
  | cons hp _ _ _ ih =>
    obtain ⟨rg, h1, -, h3, -⟩ := hp.rangeP E h Ts
    rw [passed_append, StdAlg.anyOf_append, ← h3]
    refine Sim.defd h1 (Sim.callBind fun b => ?_)
    exact Sim.ite (fun _ => Sim.pure rfl) (fun _ => ih)

theorem noneOfIn_sim {c : Coll V} {w : World} (h : c.Core E w) (Ts : List Ty) (p : Passed V → m Bool) {f : Bool} {ps : List SegInfo} {r : Nat}
    {l : List (Ty × V)} (hc : Cut E c f ps r l) : Sim Eq (noneOfIn E c Ts p ps) (StdAlg.noneOf p (passed Ts l)) := by
  induction hc with
  | nil => exact Sim.pure rfl
  | cons hp _ _ _ ih =>
    obtain ⟨rg, h1, -, h3, -⟩ := hp.rangeP E h Ts
    rw [passed_append, StdAlg.noneOf_append, ← h3]
    refine Sim.defd h1 (Sim.callBind fun b => ?_)
    exact Sim.ite (fun _ => ih) (fun _ => Sim.pure rfl)

theorem forEachIn_sim {F : Type} {c : Coll V} {w : World} (h : c.Core E w) (Ts : List Ty) (g : F → Passed V → m F) {f : Bool} {ps : List SegInfo}
    {r : Nat} {l : List (Ty × V)} (hc : Cut E c f ps r l) : ∀ s, Sim Eq (forEachIn E c Ts g ps s) (StdAlg.forEach g (passed Ts l) s) := by
  induction hc with
  | nil => exact fun s => Sim.pure rfl
  | cons hp _ _ _ ih =>
    intro s
    obtain ⟨rg, h1, -, h3, -⟩ := hp.rangeP E h Ts
    rw [passed_append, StdAlg.forEach_append, ← h3]
    exact Sim.defd h1 (Sim.callBind ih)

theorem countIn_sim {c : Coll V} {w : World} (h : c.Core E w) (Ts : List Ty) (p : Passed V → m Bool) {f : Bool} {ps : List SegInfo} {r : Nat}
    {l : List (Ty × V)} (hc : Cut E c f ps r l) :
    ∀ d, Sim Eq (countIn E c Ts p ps d) ((fun k => d + k) <$> StdAlg.countIf p (passed Ts l)) := by
  induction hc with
  | nil => intro d; exact (Sim.pure rfl).congr (by simp [passed, StdAlg.countIf])
  | cons hp _ _ _ ih =>
    intro d
    obtain ⟨rg, h1, -, h3, -⟩ := hp.rangeP E h Ts
    rw [passed_append, StdAlg.countIf_append, ← h3, map_bind]
    refine Sim.defd h1 (Sim.callBind fun k => ?_)
    refine (ih (d + k)).congr ?_
    rw [Functor.map_map]
    simp only [Nat.add_assoc]

/-! ### Copies -/

theorem copyIn_sim {c : Coll V} {w : World} (h : c.Core E w) (Ts : List Ty) {alg : List (Passed V) → O → σ → OptionT m (O × σ)}
    {std : List (Passed V) → O → σ → m (O × σ)} {Ok : σ → List (Passed V) → Prop} (hnil : ∀ o s, std [] o s = pure (o, s))
    (happ : ∀ l l' o s, Ok s (l ++ l') → std (l ++ l') o s = std l o s >>= fun x => std l' x.1 x.2)
    (hstep : ∀ l l' o s, Ok s (l ++ l') → Sim (fun x y => x = y ∧ Ok y.2 l') (alg l o s) (std l o s))
    {f : Bool} {ps : List SegInfo} {r : Nat} {l : List (Ty × V)} (hc : Cut E c f ps r l) :
    ∀ o s, Ok s (passed Ts l) → Sim Eq (copyIn E c Ts alg ps o s) (Prod.fst <$> std (passed Ts l) o s) := by
  induction hc with
  | nil => intro o s _; exact (Sim.pure rfl).congr (by simp [passed, hnil])
  | cons hp _ _ _ ih =>
    intro o s hok
    obtain ⟨rg, h1, -, h3, -⟩ := hp.rangeP E h Ts
    rw [passed_append] at hok ⊢
    rw [happ _ _ _ _ hok, ← h3, map_bind]
    rw [← h3] at hok
    refine Sim.defd h1 ((hstep _ _ o s hok).bind fun x y hxy => ?_)
    obtain ⟨rfl, hok'⟩ := hxy
    exact ih _ _ hok'

theorem plain_sim {c : Coll V} {w : World} (h : c.Core E w) (Ts : List Ty) {alg : List (Passed V) → O → m O} (hnil : ∀ o, alg [] o = pure o)
    (happ : ∀ l l' o, alg (l ++ l') o = alg l o >>= alg l') {f : Bool} {ps : List SegInfo} {r : Nat} {l : List (Ty × V)}
    (hc : Cut E c f ps r l) (o : O) : Sim Eq (copyIn E c Ts (plain alg) ps o ()) (alg (passed Ts l) o) := by
  refine (copyIn_sim E h Ts (alg := plain alg) (std := fun l o _ => (fun x => (x, ())) <$> alg l o) (Ok := fun _ _ => True)
    ?_ ?_ ?_ hc o () trivial).congr ?_
  · intro o s; simp [hnil]
  · intro l l' o s _
    simp [happ]
  · intro l l' o s _
    refine Sim.congr (y := do return ((← alg l o), ())) ?_ (by simp)
    exact Sim.callBind fun x => Sim.pure ⟨rfl, trivial⟩
  · simp

theorem transform2Alg_sim (out : O → W → m O) (op : Passed V → B → m W) (l l' : List (Passed V)) (o : O) (bs : List B)
    (h : (l ++ l').length ≤ bs.length) :
    Sim (fun x y => x = y ∧ l'.length ≤ y.2.length) (transform2Alg out op l o bs)
      ((fun o => (o, bs.drop l.length)) <$> StdAlg.transform2 out op l bs o) := by
  induction l generalizing o bs with
  | nil => exact (Sim.pure ⟨rfl, by simpa using h⟩).congr (by simp [StdAlg.transform2])
  | cons a l ih =>
    cases bs with
    | nil => simp at h
    | cons b bs =>
      have h : (l ++ l').length ≤ bs.length := by simpa using h
      simp only [StdAlg.transform2, map_bind, List.length_cons, List.drop_succ_cons]
      exact Sim.callBind fun x => Sim.callBind fun o => ih o bs h

theorem transform2In_sim {c : Coll V} {w : World} (h : c.Core E w) (Ts : List Ty) (out : O → W → m O) (op : Passed V → B → m W)
    {f : Bool} {ps : List SegInfo} {r : Nat} {l : List (Ty × V)} (hc : Cut E c f ps r l) (o : O) (bs : List B) (hl : l.length ≤ bs.length) :
    Sim Eq (copyIn E c Ts (transform2Alg out op) ps o bs) (StdAlg.transform2 out op (passed Ts l) bs o) := by
  refine (copyIn_sim E h Ts (alg := transform2Alg out op)
    (std := fun l o bs => (fun o => (o, bs.drop l.length)) <$> StdAlg.transform2 out op l bs o)
    (Ok := fun bs l => l.length ≤ bs.length) ?_ ?_ ?_ hc o bs (by rw [passed_length]; exact hl)).congr ?_
  · intro o s; simp [StdAlg.transform2]
  · intro l l' o s hs
    have : l.length ≤ s.length := by rw [List.length_append] at hs; omega
    simp [StdAlg.transform2_append _ _ _ _ _ _ this]
  · intro l l' o s hs
    exact transform2Alg_sim out op l l' o s hs
  · simp

theorem partitionCopyIn_sim {O' : Type} {c : Coll V} {w : World} (h : c.Core E w) (Ts : List Ty) (out : O → Passed V → m O)
    (out' : O' → Passed V → m O') (p : Passed V → m Bool) {f : Bool} {ps : List SegInfo} {r : Nat} {l : List (Ty × V)} (hc : Cut E c f ps r l) :
    ∀ o o', Sim Eq (partitionCopyIn E c Ts out out' p ps o o') (StdAlg.partitionCopy out out' p (passed Ts l) o o') := by
  induction hc with
  | nil => exact fun o o' => Sim.pure rfl
  | cons hp _ _ _ ih =>
    intro o o'
    obtain ⟨rg, h1, -, h3, -⟩ := hp.rangeP E h Ts
    rw [passed_append, StdAlg.partitionCopy_append, ← h3]
    exact Sim.defd h1 (Sim.callBind fun x => ih _ _)

/-! ### equal -/

theorem equal3Alg_sim (p : Passed V → B → m Bool) (l : List (Passed V)) (bs : List B) (n : Nat) (h : l.length + n ≤ bs.length) :
    Sim (fun x y => x = y ∧ (y.1 = true → n ≤ y.2.length)) (equal3Alg p l bs) (StdAlg.equalPart p l bs) := by
  induction l generalizing bs with
  | nil => exact Sim.pure ⟨rfl, fun _ => by simpa using h⟩
  | cons a l ih =>
    cases bs with
    | nil => simp only [List.length_cons, List.length_nil] at h; omega
    | cons b bs =>
      refine Sim.callBind fun x => Sim.ite (fun _ => ih bs ?_) (fun _ => Sim.pure ⟨rfl, fun e => by cases e⟩)
      simp only [List.length_cons] at h
      omega

theorem equal4Alg_sim (p : Passed V → B → m Bool) (l : List (Passed V)) (bs : List B) :
    Sim Eq (equal4Alg p l bs) (StdAlg.equalPart p l bs) := by
  induction l generalizing bs with
  | nil => exact Sim.pure rfl
  | cons a l ih =>
    cases bs with
    | nil => exact Sim.pure rfl
    | cons b bs => exact Sim.callBind fun x => Sim.ite (fun _ => ih bs) (fun _ => Sim.pure rfl)

theorem equal4In_sim {c : Coll V} {w : World} (h : c.Core E w) (Ts : List Ty) (p : Passed V → B → m Bool) {f : Bool} {ps : List SegInfo} {r : Nat}
    {l : List (Ty × V)} (hc : Cut E c f ps r l) :
    ∀ bs, Sim Eq (equalIn E c Ts (equal4Alg p) (fun bs => bs.isEmpty) ps bs) (StdAlg.equal p (passed Ts l) bs) := by
  induction hc with
  | nil => exact fun bs => Sim.pure rfl
  | cons hp _ _ _ ih =>
    intro bs
    obtain ⟨rg, h1, -, h3, -⟩ := hp.rangeP E h Ts
    rw [passed_append, StdAlg.equal_append, ← h3]
    refine Sim.defd h1 ((equal4Alg_sim p _ bs).bind fun x y hxy => ?_)
    subst hxy
    exact Sim.ite (fun _ => ih _) (fun _ => Sim.pure rfl)

/-- The second range may be longer. -/
theorem equal3In_sim {c : Coll V} {w : World} (h : c.Core E w) (Ts : List Ty) (p : Passed V → B → m Bool) {f : Bool} {ps : List SegInfo} {r : Nat}
    {l : List (Ty × V)} (hc : Cut E c f ps r l) :
    ∀ bs, l.length ≤ bs.length →
      Sim Eq (equalIn E c Ts (equal3Alg p) (fun _ => true) ps bs) (Prod.fst <$> StdAlg.equalPart p (passed Ts l) bs) := by
  induction hc with
  | nil => intro bs _; exact (Sim.pure rfl).congr (by simp [passed, StdAlg.equalPart])
  | @cons f i is n a b r l hp _ _ _ ih =>
    intro bs hl
    obtain ⟨rg, h1, -, h3, -⟩ := hp.rangeP E h Ts
    have happ : ∀ (k k' : List (Passed V)) bs, StdAlg.equalPart p (k ++ k') bs =
        StdAlg.equalPart p k bs >>= fun r => if r.1 then StdAlg.equalPart p k' r.2 else pure r := by
      intro k k'
      induction k with
      | nil => intro bs; simp [StdAlg.equalPart]
      | cons a k ih =>
        intro bs
        cases bs with
        | nil => simp [StdAlg.equalPart]
        | cons b bs =>
          simp only [List.cons_append, StdAlg.equalPart, ih, bind_assoc]
          refine bind_congr fun b => ?_
          cases b <;> simp
    rw [passed_append, happ, ← h3, map_bind]
    refine Sim.defd h1 ((equal3Alg_sim p _ bs l.length ?_).bind fun x y hxy => ?_)
    · rw [h3, passed_length]; simpa using hl
    obtain ⟨rfl, hy⟩ := hxy
    obtain ⟨b, bs'⟩ := x
    cases b
    · exact (Sim.pure rfl).congr (by simp)
    · exact ih _ (hy rfl)

end Algo
end PolyColl
