import Verif.Props.NoCut
import Verif.Props.EndToEndEx

/-!
# C151: the cuts depend on the disjunctive hull only
-/
namespace VPC
open Finset

/-- Every solution of the point-ray LP is a valid inequality of the disjunctive hull. -/
theorem feas_valid {sortP : List PRow → List PRow} (hsort : ∀ l, (sortP l).Perm l) {INF DIFFEPS scale : ℚ} (hI : 0 < INF)
    (hE : 0 < DIFFEPS) {n : ℕ} {ip : Option (SVec × ℚ)} {outs : List TermOutcome}
    (hwf : WellFormed scale n (setupConstraints false ip outs)) (hi : IdxBelow n (collectedTerms ip outs))
    (hex : Exact scale DIFFEPS (setupConstraints false ip outs))
    {L : BuiltLP} (hL : prlpSetup sortP INF DIFFEPS scale n (setupConstraints false ip outs) = some L)
    {β : List ℚ} (hβ : L.Feas INF β) : ValidCut n (collectedTerms ip outs) (expand L.nz β) scale := by
  have hok : ∀ r ∈ setupConstraints false ip outs, RowOK scale (expand L.nz β) r := by
    intro r hr
    rcases setup_sound_partial sortP hsort INF DIFFEPS scale n _ hI hE hwf hex.noReplace L hL β hβ r hr with
      h | ⟨r2, h2, h3, h5, h4⟩
    · exact h
    · exact hex.truthful r hr r2 h2 h5 h4 _ h3
  refine (hull_valid_iff n _ _ scale hi).2 fun t ht => ?_
  unfold collectedTerms at ht
  rcases List.mem_append.1 ht with ht | ht
  · cases ip with
    | none => simp at ht
    | some p =>
      simp only [List.mem_singleton] at ht
      subst ht
      have := hok ⟨p.1, 1, p.2⟩ (by simp [setupConstraints])
      exact ⟨by simpa [RowOK] using this, by simp⟩
  · obtain ⟨o, ho, hto⟩ := List.mem_filterMap.1 ht
    cases o with
    | infeasible => simp at hto
    | notOptimal => simp at hto
    | timeLimit => simp at hto
    | collected p d rays =>
      simp only [Option.some.injEq] at hto
      subst hto
      have hmem : ∀ r ∈ termRows false (.collected p d rays), r ∈ setupConstraints false ip outs := fun r hr =>
        List.mem_append_right _ (List.mem_flatMap.2 ⟨_, ho, hr⟩)
      refine ⟨?_, fun r hr => ?_⟩
      · have := hok ⟨p, 1, d⟩ (hmem _ (by simp [termRows]))
        simpa [RowOK] using this
      · obtain ⟨q, hq, rfl⟩ := List.mem_map.1 hr
        by_cases h0 : q.1 = []
        · rw [h0]; simp
        · have := hok ⟨q.1, 0, q.2⟩ (hmem _ (by
            unfold termRows
            refine List.mem_cons_of_mem _ (List.mem_map.2 ⟨q, List.mem_filter.2 ⟨hq, ?_⟩, rfl⟩)
            cases h : q.1 with
            | nil => exact absurd h h0
            | cons _ _ => rfl))
          simpa [RowOK] using this

/-- Every valid inequality of the disjunctive hull with the right-hand side of the LP is a solution; the coefficients of deleted
columns are not needed. -/
theorem valid_feas {sortP : List PRow → List PRow} (hsort : ∀ l, (sortP l).Perm l) {INF DIFFEPS scale : ℚ} {n : ℕ}
    {ip : Option (SVec × ℚ)} {outs : List TermOutcome} (hwf : WellFormed scale n (setupConstraints false ip outs))
    (hi : IdxBelow n (collectedTerms ip outs))
    {L : BuiltLP} (hL : prlpSetup sortP INF DIFFEPS scale n (setupConstraints false ip outs) = some L)
    {α : Vec} (hα : ValidCut n (collectedTerms ip outs) α scale) :
    L.Feas INF (L.nz.map α) ∧ ∀ j ∈ L.nz, expand L.nz (L.nz.map α) j = α j := by
  have h := setup_complete sortP hsort INF DIFFEPS scale n _ hwf L hL α (rows_ok_of_valid hi hα)
  exact ⟨h.1, fun j hj => by rw [h.2 j, if_pos hj]⟩

/-- A collection together with the LP made of it, exact arithmetic. -/
structure Built (INF DIFFEPS scale : ℚ) (n : ℕ) (ip : Option (SVec × ℚ)) (outs : List TermOutcome) (L : BuiltLP) : Prop where
  wf : WellFormed scale n (setupConstraints false ip outs)
  idx : IdxBelow n (collectedTerms ip outs)
  exact' : Exact scale DIFFEPS (setupConstraints false ip outs)
  built : ∃ sortP : List PRow → List PRow, (∀ l, (sortP l).Perm l) ∧
    prlpSetup sortP INF DIFFEPS scale n (setupConstraints false ip outs) = some L

/-- The disjunctive hull of the second collection is contained in that of the first. -/
def HullLe (n : ℕ) (B A : List (SVec × List SVec)) : Prop := ∀ y, InHull n B y → InHull n A y

/-- **C151.** If the disjunctive hull of a collection is contained in that of another, its point-ray LP has a solution whenever the
other has one, and for every target point its optimal cut is at least as strong. -/
theorem smaller_hull_stronger {INF DIFFEPS scale : ℚ} (hI : 0 < INF) (hE : 0 < DIFFEPS) {n : ℕ}
    {ipA ipB : Option (SVec × ℚ)} {outsA outsB : List TermOutcome} {LA LB : BuiltLP}
    (hA : Built INF DIFFEPS scale n ipA outsA LA) (hB : Built INF DIFFEPS scale n ipB outsB LB)
    (hle : HullLe n (collectedTerms ipB outsB) (collectedTerms ipA outsA)) :
    (LB.NoSolution INF → LA.NoSolution INF) ∧
    ∀ p : SVec, (∀ e ∈ p, e.1 ∈ LB.nz) → ∀ βA, LA.Feas INF βA → ∀ βB, LB.Optimal INF (LB.nz.map (scoef p)) βB →
      sdot p (expand LB.nz βB) ≤ sdot p (expand LA.nz βA) := by
  obtain ⟨sA, hsA, hLA⟩ := hA.built
  obtain ⟨sB, hsB, hLB⟩ := hB.built
  have key : ∀ βA, LA.Feas INF βA → ValidCut n (collectedTerms ipB outsB) (expand LA.nz βA) scale := fun βA h y hy =>
    feas_valid hsA hI hE hA.wf hA.idx hA.exact' hLA h y (hle y hy)
  exact ⟨fun h βA hβ => h _ (valid_feas hsB hB.wf hB.idx hLB (key βA hβ)).1,
    fun p hp βA hβA βB hopt => (optimal_strongest_at hsB hB.wf hB.idx hLB hp hopt (key βA hβA)).1⟩

/-- **C151.** Two collections with the same disjunctive hull give the same: one LP has a solution exactly if the other has one, and
the optimal cuts for a target point have the same value there. -/
theorem same_hull_same_cuts {INF DIFFEPS scale : ℚ} (hI : 0 < INF) (hE : 0 < DIFFEPS) {n : ℕ}
    {ipA ipB : Option (SVec × ℚ)} {outsA outsB : List TermOutcome} {LA LB : BuiltLP}
    (hA : Built INF DIFFEPS scale n ipA outsA LA) (hB : Built INF DIFFEPS scale n ipB outsB LB)
    (heq : ∀ y, InHull n (collectedTerms ipA outsA) y ↔ InHull n (collectedTerms ipB outsB) y) :
    (LA.NoSolution INF ↔ LB.NoSolution INF) ∧
    ∀ p : SVec, (∀ e ∈ p, e.1 ∈ LA.nz) → (∀ e ∈ p, e.1 ∈ LB.nz) →
      ∀ βA, LA.Optimal INF (LA.nz.map (scoef p)) βA → ∀ βB, LB.Optimal INF (LB.nz.map (scoef p)) βB →
        sdot p (expand LA.nz βA) = sdot p (expand LB.nz βB) := by
  have h1 := smaller_hull_stronger hI hE hA hB fun y hy => (heq y).2 hy
  have h2 := smaller_hull_stronger hI hE hB hA fun y hy => (heq y).1 hy
  exact ⟨⟨h2.1, h1.1⟩, fun p hpA hpB βA hoA βB hoB =>
    le_antisymm (h2.2 p hpA βB hoB.1 βA hoA) (h1.2 p hpB βA hoA.1 βB hoB)⟩

/-! ## What leaves the hull unchanged -/

theorem hull_subset {n : ℕ} {B A : List (SVec × List SVec)} (h : ∀ t ∈ B, ∀ y, InTermCone n t.1 t.2 y → InHull n A y) :
    HullLe n B A := by
  intro y hy
  induction hy with
  | term t y ht hy => exact h t ht y hy
  | mix y z l _ _ h0 h1 ihy ihz => exact .mix y z l ihy ihz h0 h1

theorem cone_add (rays : List SVec) : ∀ u v : List ℚ, u.length = rays.length → v.length = rays.length →
    (∀ c ∈ u, 0 ≤ c) → (∀ c ∈ v, 0 ≤ c) → ∃ w : List ℚ, w.length = rays.length ∧ (∀ c ∈ w, 0 ≤ c) ∧
      ∀ i, ((w.zip rays).map fun q => q.1 * scoef q.2 i).sum =
        ((u.zip rays).map fun q => q.1 * scoef q.2 i).sum + ((v.zip rays).map fun q => q.1 * scoef q.2 i).sum := by
  induction rays with
  | nil => intro u v _ _ _ _; exact ⟨[], rfl, by simp, by simp⟩
  | cons r rs ih =>
    intro u v hu hv h0u h0v
    obtain ⟨a, u, rfl⟩ : ∃ a u', u = a :: u' := by cases u <;> simp at hu ⊢
    obtain ⟨b, v, rfl⟩ : ∃ a u', v = a :: u' := by cases v <;> simp at hv ⊢
    obtain ⟨w, hw, h0, hs⟩ := ih u v (by simpa using hu) (by simpa using hv) (fun c hc => h0u c (by simp [hc]))
      (fun c hc => h0v c (by simp [hc]))
    refine ⟨(a + b) :: w, by simp [hw], fun c hc => ?_, fun i => ?_⟩
    · rcases List.mem_cons.1 hc with rfl | hc
      · exact add_nonneg (h0u a (by simp)) (h0v b (by simp))
      · exact h0 c hc
    · simp only [List.zip_cons_cons, List.map_cons, List.sum_cons, hs i]; ring

theorem cone_zero (rays : List SVec) : ∃ w : List ℚ, w.length = rays.length ∧ (∀ c ∈ w, 0 ≤ c) ∧
    ∀ i, ((w.zip rays).map fun q => q.1 * scoef q.2 i).sum = 0 := by
  refine ⟨rays.map fun _ => 0, by simp, by simp, fun i => ?_⟩
  induction rays with
  | nil => simp
  | cons r rs ih => simpa using ih

theorem cone_single {c : ℚ} (hc : 0 ≤ c) {r : SVec} : ∀ {rays : List SVec}, r ∈ rays →
    ∃ w : List ℚ, w.length = rays.length ∧ (∀ c ∈ w, 0 ≤ c) ∧
      ∀ i, ((w.zip rays).map fun q => q.1 * scoef q.2 i).sum = c * scoef r i
  | s :: rs, h => by
    rcases List.mem_cons.1 h with rfl | h
    · obtain ⟨w, hw, h0, hs⟩ := cone_zero rs
      exact ⟨c :: w, by simp [hw], by simpa [hc] using h0, fun i => by simp [hs i]⟩
    · obtain ⟨w, hw, h0, hs⟩ := cone_single hc h
      exact ⟨0 :: w, by simp [hw], by simpa using h0, fun i => by simp [hs i]⟩

/-- Rays in another order, or several times, or more of them: the cone does not get smaller. -/
theorem cone_mono {n : ℕ} {p : SVec} {rays rays' : List SVec} (h : ∀ r ∈ rays, r ∈ rays') {y : Vec}
    (hy : InTermCone n p rays y) : InTermCone n p rays' y := by
  obtain ⟨w, hw, h0, hs⟩ := hy
  obtain ⟨v, hv, h0v, hsv⟩ : ∃ v : List ℚ, v.length = rays'.length ∧ (∀ c ∈ v, 0 ≤ c) ∧
      ∀ i, ((v.zip rays').map fun q => q.1 * scoef q.2 i).sum = ((w.zip rays).map fun q => q.1 * scoef q.2 i).sum := by
    clear hs
    induction rays generalizing w with
    | nil =>
      obtain ⟨v, h1, h2, h3⟩ := cone_zero rays'
      exact ⟨v, h1, h2, fun i => by rw [h3 i]; simp⟩
    | cons r rs ih =>
      obtain ⟨a, w, rfl⟩ : ∃ a u', w = a :: u' := by cases w <;> simp at hw ⊢
      obtain ⟨v, hv, h0v, hsv⟩ := ih (fun q hq => h q (by simp [hq])) w (by simpa using hw) fun c hc => h0 c (by simp [hc])
      obtain ⟨u, hu, h0u, hsu⟩ := cone_single (h0 a (by simp)) (h r (by simp))
      obtain ⟨x, hx, h0x, hsx⟩ := cone_add rays' u v hu hv h0u h0v
      exact ⟨x, hx, h0x, fun i => by rw [hsx i, hsu i, hsv i]; simp⟩
  exact ⟨v, hv, h0v, fun i hi => by rw [hs i hi, hsv i]⟩

/-- A term taken again, or contained in the hull of the others, adds nothing. -/
theorem redundant_term {n : ℕ} {A : List (SVec × List SVec)} {t : SVec × List SVec}
    (h : ∀ y, InTermCone n t.1 t.2 y → InHull n A y) (y : Vec) : InHull n (t :: A) y ↔ InHull n A y := by
  refine ⟨fun hy => hull_subset (B := t :: A) (fun s hs => ?_) y hy, fun hy => hull_subset (B := A) (fun s hs z hz => ?_) y hy⟩
  · rcases List.mem_cons.1 hs with rfl | hs
    · exact h
    · exact fun z hz => .term s z hs hz
  · exact .term s z (List.mem_cons_of_mem _ hs) hz

/-- **C151.** The order of the terms of the disjunction, the repetition of terms, and the order in which the sort leaves points and
rays of the same depth, do not matter. -/
theorem order_irrelevant {INF DIFFEPS scale : ℚ} (hI : 0 < INF) (hE : 0 < DIFFEPS) {n : ℕ} {ip : Option (SVec × ℚ)}
    {outsA outsB : List TermOutcome} (hsame : ∀ o, o ∈ outsA ↔ o ∈ outsB) {LA LB : BuiltLP}
    (hA : Built INF DIFFEPS scale n ip outsA LA) {sortP : List PRow → List PRow} (hsort : ∀ l, (sortP l).Perm l)
    (hLB : prlpSetup sortP INF DIFFEPS scale n (setupConstraints false ip outsB) = some LB) :
    (LA.NoSolution INF ↔ LB.NoSolution INF) ∧
    ∀ p : SVec, (∀ e ∈ p, e.1 ∈ LA.nz) → (∀ e ∈ p, e.1 ∈ LB.nz) →
      ∀ βA, LA.Optimal INF (LA.nz.map (scoef p)) βA → ∀ βB, LB.Optimal INF (LB.nz.map (scoef p)) βB →
        sdot p (expand LA.nz βA) = sdot p (expand LB.nz βB) := by
  have hrow : ∀ r, r ∈ setupConstraints false ip outsB → r ∈ setupConstraints false ip outsA := by
    intro r hr
    unfold setupConstraints at hr ⊢
    rcases List.mem_append.1 hr with hr | hr
    · exact List.mem_append_left _ hr
    · obtain ⟨o, ho, hr⟩ := List.mem_flatMap.1 hr
      exact List.mem_append_right _ (List.mem_flatMap.2 ⟨o, (hsame o).2 ho, hr⟩)
  have hterm : ∀ t, t ∈ collectedTerms ip outsA ↔ t ∈ collectedTerms ip outsB := by
    intro t
    unfold collectedTerms
    simp only [List.mem_append, List.mem_filterMap, hsame]
  have hB : Built INF DIFFEPS scale n ip outsB LB :=
    ⟨⟨fun r hr => hA.wf.rhs r (hrow r hr), fun r hr => hA.wf.sing r (hrow r hr), fun r hr => hA.wf.idx r (hrow r hr)⟩,
      fun t ht => hA.idx t ((hterm t).2 ht),
      ⟨fun r hr r2 hr2 => hA.exact'.noReplace r (hrow r hr) r2 (hrow r2 hr2),
        fun r hr r2 hr2 => hA.exact'.truthful r (hrow r hr) r2 (hrow r2 hr2)⟩, ⟨sortP, hsort, hLB⟩⟩
  exact same_hull_same_cuts hI hE hA hB fun y =>
    ⟨hull_subset (fun t ht z hz => .term t z ((hterm t).1 ht) hz) y, hull_subset (fun t ht z hz => .term t z ((hterm t).2 ht) hz) y⟩

/-- **C151.** Leaving terms out (for example because they are infeasible) never makes the cuts weaker, and taking terms in never
makes them stronger. -/
theorem fewer_terms_stronger {INF DIFFEPS scale : ℚ} (hI : 0 < INF) (hE : 0 < DIFFEPS) {n : ℕ} {ip : Option (SVec × ℚ)}
    {outsA outsB : List TermOutcome} (hsub : ∀ o ∈ outsB, o ∈ outsA) {LA LB : BuiltLP}
    (hA : Built INF DIFFEPS scale n ip outsA LA) (hB : Built INF DIFFEPS scale n ip outsB LB) :
    (LB.NoSolution INF → LA.NoSolution INF) ∧
    ∀ p : SVec, (∀ e ∈ p, e.1 ∈ LB.nz) → ∀ βA, LA.Feas INF βA → ∀ βB, LB.Optimal INF (LB.nz.map (scoef p)) βB →
      sdot p (expand LB.nz βB) ≤ sdot p (expand LA.nz βA) := by
  refine smaller_hull_stronger hI hE hA hB (hull_subset fun t ht z hz => .term t z ?_ hz)
  unfold collectedTerms at ht ⊢
  rcases List.mem_append.1 ht with ht | ht
  · exact List.mem_append_left _ ht
  · obtain ⟨o, ho, h⟩ := List.mem_filterMap.1 ht
    exact List.mem_append_right _ (List.mem_filterMap.2 ⟨o, hsub o ho, h⟩)

/-- **C151.** The integer solution collected besides the terms changes nothing if it is a point of the hull of the terms. -/
theorem int_point_irrelevant {INF DIFFEPS scale : ℚ} (hI : 0 < INF) (hE : 0 < DIFFEPS) {n : ℕ} {v : SVec} {d : ℚ}
    {outs : List TermOutcome} {LA LB : BuiltLP} (hA : Built INF DIFFEPS scale n none outs LA)
    (hB : Built INF DIFFEPS scale n (some (v, d)) outs LB)
    (hv : ∀ y, InTermCone n v [] y → InHull n (collectedTerms none outs) y) :
    (LA.NoSolution INF ↔ LB.NoSolution INF) ∧
    ∀ p : SVec, (∀ e ∈ p, e.1 ∈ LA.nz) → (∀ e ∈ p, e.1 ∈ LB.nz) →
      ∀ βA, LA.Optimal INF (LA.nz.map (scoef p)) βA → ∀ βB, LB.Optimal INF (LB.nz.map (scoef p)) βB →
        sdot p (expand LA.nz βA) = sdot p (expand LB.nz βB) := by
  refine same_hull_same_cuts hI hE hA hB fun y => ?_
  have h := redundant_term (t := (v, [])) hv y
  have h1 : collectedTerms (some (v, d)) outs = (v, []) :: collectedTerms none outs := by simp [collectedTerms]
  rw [h1]
  exact h.symm

/-! ## Non-vacuity -/

namespace Tri

/-- What is collected for the two terms of the example of `EndToEndEx`. -/
def twoOuts : List TermOutcome :=
  [.collected [(1, 2)] 1 [([(1, 4)], 2), ([(0, 1), (1, 1)], 1)],
   .collected [(0, 2)] 1 [([(0, 4)], 2), ([(0, 1), (1, 1)], 1)]]

/-- The same with the terms in the other order, and one of them again. -/
def threeOuts : List TermOutcome :=
  [.collected [(0, 2)] 1 [([(0, 4)], 2), ([(0, 1), (1, 1)], 1)],
   .collected [(1, 2)] 1 [([(1, 4)], 2), ([(0, 1), (1, 1)], 1)],
   .collected [(0, 2)] 1 [([(0, 4)], 2), ([(0, 1), (1, 1)], 1)]]

theorem twoBuilt : Built 1000000 (1/1000) 1 2 none twoOuts L where
  wf := (by decide +kernel : setupConstraints false none twoOuts = rows) ▸ wf
  idx := by unfold IdxBelow; decide +kernel
  exact' := (by decide +kernel : setupConstraints false none twoOuts = rows) ▸ exact_rows
  built := ⟨id, fun l => List.Perm.refl l, (by decide +kernel : setupConstraints false none twoOuts = rows) ▸ prlp_eq⟩

example : ∃ LB, prlpSetup List.reverse 1000000 (1/1000) 1 2 (setupConstraints false none threeOuts) = some LB ∧
    (L.NoSolution 1000000 ↔ LB.NoSolution 1000000) := by
  obtain ⟨LB, hLB⟩ := Option.isSome_iff_exists.1 (by decide +kernel :
    (prlpSetup List.reverse 1000000 (1/1000) 1 2 (setupConstraints false none threeOuts)).isSome = true)
  exact ⟨LB, hLB, (order_irrelevant (by norm_num) (by norm_num) (fun o => by simp [twoOuts, threeOuts, or_comm]) twoBuilt
    (fun l => List.reverse_perm l) hLB).1⟩

/-- The first term alone: its hull is contained in that of both. -/
def oneOut : List TermOutcome := [.collected [(1, 2)] 1 [([(1, 4)], 2), ([(0, 1), (1, 1)], 1)]]

example : HullLe 2 (collectedTerms none oneOut) (collectedTerms none twoOuts) :=
  hull_subset fun t ht z hz => .term t z (by revert ht; unfold oneOut twoOuts; simp only [collectedTerms, List.filterMap_cons,
    List.filterMap_nil, List.nil_append, List.mem_cons, List.not_mem_nil, or_false]; exact Or.inl) hz

theorem oneBuilt : ∃ LB, Built 1000000 (1/1000) 1 2 none oneOut LB := by
  have hsub : ∀ r ∈ setupConstraints false none oneOut, r ∈ rows := by decide +kernel
  obtain ⟨LB, hLB⟩ := Option.isSome_iff_exists.1 (by decide +kernel :
    (prlpSetup id 1000000 (1/1000) 1 2 (setupConstraints false none oneOut)).isSome = true)
  exact ⟨LB, ⟨fun r hr => wf.rhs r (hsub r hr), fun r hr => wf.sing r (hsub r hr), fun r hr => wf.idx r (hsub r hr)⟩,
    by unfold IdxBelow; decide +kernel,
    ⟨fun r hr r2 hr2 => exact_rows.noReplace r (hsub r hr) r2 (hsub r2 hr2),
      fun r hr r2 hr2 => exact_rows.truthful r (hsub r hr) r2 (hsub r2 hr2)⟩, ⟨id, fun l => List.Perm.refl l, hLB⟩⟩

example : ∃ LB, Built 1000000 (1/1000) 1 2 none oneOut LB ∧ (LB.NoSolution 1000000 → L.NoSolution 1000000) := by
  obtain ⟨LB, h⟩ := oneBuilt
  exact ⟨LB, h, (fewer_terms_stronger (by norm_num) (by norm_num) (by simp [oneOut, twoOuts]) twoBuilt h).1⟩

/-- The integer solution (1, 0) of `D2` has the nonbasic coordinates `(2, 0)`: the vertex of the second term. -/
example : ∀ y, InTermCone 2 [(0, 2)] [] y → InHull 2 (collectedTerms none twoOuts) y := fun y h =>
  .term ([(0, 2)], [[(0, 4)], [(0, 1), (1, 1)]]) y (by simp [collectedTerms, twoOuts]) (cone_mono (by simp) h)

example : Built 1000000 (1/1000) 1 2 (some ([(0, 2)], 1)) twoOuts L2 where
  wf := by
    have hsub : ∀ r ∈ setupConstraints false (some ([(0, 2)], 1)) twoOuts, r ∈ rows := by decide +kernel
    exact ⟨fun r hr => wf.rhs r (hsub r hr), fun r hr => wf.sing r (hsub r hr), fun r hr => wf.idx r (hsub r hr)⟩
  idx := by unfold IdxBelow; decide +kernel
  exact' := by
    have hsub : ∀ r ∈ setupConstraints false (some ([(0, 2)], 1)) twoOuts, r ∈ rows := by decide +kernel
    exact ⟨fun r hr r2 hr2 => exact_rows.noReplace r (hsub r hr) r2 (hsub r2 hr2),
      fun r hr r2 hr2 => exact_rows.truthful r (hsub r hr) r2 (hsub r2 hr2)⟩
  built := ⟨id, fun l => List.Perm.refl l, by decide +kernel⟩

end Tri
end VPC
