import Verif.Model.PrlpSolve
import Verif.Props.SolverOps

/-!
# C130: solving the point-ray LP for one objective
-/
namespace VPC

variable {σ : Type}

/-! ## Specification -/

/-- A clock and a deadline: setting the maximum number of seconds moves the deadline to that many seconds from now,
nothing else moves it; a run of the LP solver ends at the deadline at the latest (if it is not over already);
everything else takes no time. -/
structure Clock (p : PrlpImpl σ) (clock deadline : σ → ℚ) : Prop where
  set : ∀ t s, clock (p.setSeconds t s) = clock s ∧ deadline (p.setSeconds t s) = clock s + t
  reset : ∀ s, clock (p.resetIter s) = clock s ∧ deadline (p.resetIter s) = deadline s
  resolve : ∀ s, clock (p.base.resolve s) ≤ max (clock s) (deadline s) ∧
    deadline (p.base.resolve s) = deadline s
  initialSolve : ∀ s, clock (p.base.initialSolve s) ≤ max (clock s) (deadline s) ∧
    deadline (p.base.initialSolve s) = deadline s
  cleanup : ∀ k s, clock (p.base.cleanup k s) ≤ max (clock s) (deadline s) ∧
    deadline (p.base.cleanup k s) = deadline s
  dual : ∀ s, clock (p.base.dualValuesPass s) ≤ max (clock s) (deadline s) ∧
    deadline (p.base.dualValuesPass s) = deadline s
  status : ∀ s, clock (p.base.setStatus2 s) = clock s ∧ deadline (p.base.setStatus2 s) = deadline s
  enable : ∀ s, clock (p.base.enableFact s) = clock s ∧ deadline (p.base.enableFact s) = deadline s
  disable : ∀ s, clock (p.base.disableFact s) = clock s ∧ deadline (p.base.disableFact s) = deadline s

/-- `cnt` counts runs of the LP solver. -/
structure Runs (p : PrlpImpl σ) (cnt : σ → ℕ) : Prop where
  set : ∀ t s, cnt (p.setSeconds t s) = cnt s
  reset : ∀ s, cnt (p.resetIter s) = cnt s
  resolve : ∀ s, cnt (p.base.resolve s) ≤ cnt s + 1
  initialSolve : ∀ s, cnt (p.base.initialSolve s) ≤ cnt s + 1
  cleanup : ∀ k s, cnt (p.base.cleanup k s) ≤ cnt s + 1
  dual : ∀ s, cnt (p.base.dualValuesPass s) ≤ cnt s + 1
  status : ∀ s, cnt (p.base.setStatus2 s) ≤ cnt s
  enable : ∀ s, cnt (p.base.enableFact s) ≤ cnt s
  disable : ∀ s, cnt (p.base.disableFact s) ≤ cnt s

/-! ## The check under a time limit -/

/-- `Φ` grows by at most `L` when the time limit is set and never otherwise. -/
structure Timed (I : SolverImpl σ) (Φ : σ → ℚ) (L : ℚ) : Prop where
  timed : ∀ s, Φ (I.timed s) ≤ Φ s + L
  resolve : ∀ s, Φ (I.resolve s) ≤ Φ s
  cleanup : ∀ k s, Φ (I.cleanup k s) ≤ Φ s
  dual : ∀ s, Φ (I.dualValuesPass s) ≤ Φ s
  status : ∀ s, Φ (I.setStatus2 s) ≤ Φ s
  enable : ∀ s, Φ (I.enableFact s) ≤ Φ s
  disable : ∀ s, Φ (I.disableFact s) ≤ Φ s

theorem cleanStep_timed {I : SolverImpl σ} {Φ : σ → ℚ} {L : ℚ} (hc : Timed I Φ L) {s s' : σ}
    (h : cleanStep I s = some s') : Φ s' ≤ Φ s := by
  unfold cleanStep at h
  split at h
  · cases h; exact hc.cleanup _ _
  · split at h
    · cases h; exact hc.cleanup _ _
    · split at h
      · cases h; exact hc.cleanup _ _
      · cases h

theorem resolveLoop_timed {I : SolverImpl σ} {Φ : σ → ℚ} {L : ℚ} (hL : 0 ≤ L) (hc : Timed I Φ L)
    (max count : ℕ) (infeas : ℚ) (s : σ) :
    Φ (resolveLoop I max count infeas s).1 ≤ Φ s + ((max - count : ℕ) : ℚ) * L := by
  fun_induction resolveLoop I max count infeas s with
  | case1 count infeas s h curr hcc ih =>
    have h1 := hc.resolve (I.timed s)
    have h2 := hc.timed s
    have h3 : (max - count : ℕ) = (max - (count + 1) : ℕ) + 1 := by omega
    rw [h3]
    push_cast
    have h4 := ih
    linarith
  | case2 => exact le_add_of_nonneg_right (mul_nonneg (Nat.cast_nonneg _) hL)
  | case3 => exact le_add_of_nonneg_right (mul_nonneg (Nat.cast_nonneg _) hL)

theorem checkResolves_timed {I : SolverImpl σ} {Φ : σ → ℚ} {L : ℚ} (hL : 0 ≤ L) (hc : Timed I Φ L)
    (max count : ℕ) (s : σ) :
    Φ (checkResolves I max count s).1 ≤ Φ s + ((max - count : ℕ) : ℚ) * L + L := by
  unfold checkResolves
  have h1 := resolveLoop_timed hL hc max count dblMax s
  cases hr : resolveLoop I max count dblMax s with
  | mk s1 c1 =>
    rw [hr] at h1
    simp only at h1 ⊢
    have d := hc.dual s1
    have f : ∀ t, Φ (I.disableFact (I.resolve (I.timed (I.enableFact t)))) ≤ Φ t + L := fun t => by
      have a1 := hc.enable t
      have a4 := hc.timed (I.enableFact t)
      have a2 := hc.resolve (I.timed (I.enableFact t))
      have a3 := hc.disable (I.resolve (I.timed (I.enableFact t)))
      linarith
    have g := hc.status (I.dualValuesPass s1)
    have f1 := f (I.setStatus2 (I.dualValuesPass s1))
    have f2 := f (I.dualValuesPass s1)
    have f3 := f s1
    split
    · split
      · split <;> simp only <;> linarith
      · split <;> simp only <;> linarith
    · split <;> simp only <;> linarith

theorem checkTail_timed {I : SolverImpl σ} {Φ : σ → ℚ} {L : ℚ} (hc : Timed I Φ L) (e : Bool)
    (max count : ℕ) (s : σ) (b : Bool) (s' : σ) (h : checkTail I e max count s = .ok (b, s')) : Φ s' ≤ Φ s := by
  unfold checkTail at h
  split at h
  · cases h; exact le_refl _
  · split at h
    · simp only at h
      have h2 : Φ (if count < max then I.resolve s else s) ≤ Φ s := by
        split
        · exact hc.resolve s
        · exact le_refl _
      generalize (if count < max then I.resolve s else s) = t at h h2
      split at h
      · cases h; exact h2
      · split at h
        · split at h
          · cases h
          · cases h; exact h2
        · split at h <;> (cases h; exact h2)
    · cases h; exact le_refl _

/-- The check sets the time limit at most `maxNumResolves + 1` times. -/
theorem check_timed {I : SolverImpl σ} {Φ : σ → ℚ} {L : ℚ} (hL : 0 ≤ L) (hc : Timed I Φ L) (e : Bool)
    (max : ℕ) (s : σ) (b : Bool) (s' : σ) (h : checkSolverOptimality I e max s = .ok (b, s')) :
    Φ s' ≤ Φ s + (max + 1) * L := by
  have hm0 : (0 : ℚ) ≤ (max + 1) * L := by positivity
  unfold checkSolverOptimality at h
  split at h
  · rename_i hm
    have hm : 0 < max := by simp at hm; exact hm.2
    have key : ∀ t (c : ℕ), c ≤ 1 → Φ t ≤ Φ s + c * L →
        (if c < max then
          match cleanStep I t with
          | some s => checkTail I e 0 0 s
          | none =>
            match checkResolves I max c t with
            | (s, count) =>
              match cleanStep I s with
              | some s => checkTail I e 0 0 s
              | none => checkTail I e max count s
        else checkTail I e max c t) = .ok (b, s') → Φ s' ≤ Φ s + (max + 1) * L := by
      intro t c hc1 ht hh
      have hcm : (c : ℚ) * L ≤ (max + 1) * L := by
        apply mul_le_mul_of_nonneg_right _ hL
        have : (c : ℚ) ≤ 1 := by exact_mod_cast hc1
        have : (0 : ℚ) ≤ max := Nat.cast_nonneg _
        linarith
      split at hh
      · rename_i hcl
        split at hh
        · rename_i s1 h1
          have h2 := checkTail_timed hc _ _ _ _ _ _ hh
          have h3 := cleanStep_timed hc h1
          linarith
        · have h2 := checkResolves_timed hL hc max c t
          have h5 : (((max - c : ℕ) : ℚ)) = max - c := by rw [Nat.cast_sub (by omega)]
          rw [h5] at h2
          cases hr : checkResolves I max c t with
          | mk s1 c1 =>
            rw [hr] at hh h2
            simp only at hh h2
            split at hh
            · rename_i s2 h3
              have h4 := checkTail_timed hc _ _ _ _ _ _ hh
              have h5 := cleanStep_timed hc h3
              linarith
            · have h4 := checkTail_timed hc _ _ _ _ _ _ hh
              linarith
      · have h4 := checkTail_timed hc _ _ _ _ _ _ hh
        linarith
    by_cases hp : I.isPrimalInf s = true
    · simp only [hp, if_true] at h
      refine key _ 1 (by omega) ?_ h
      have h1 := hc.resolve (I.timed s)
      have h2 := hc.timed s
      rw [Nat.cast_one, one_mul]
      linarith
    · rw [if_neg hp] at h
      exact key _ 0 (by omega) (by simp) h
  · have h4 := checkTail_timed hc _ _ _ _ _ _ h
    linarith

theorem recheck_timed {I : SolverImpl σ} {Φ : σ → ℚ} {L : ℚ} (hL : 0 ≤ L) (hc : Timed I Φ L) {s s' : σ}
    (h : recheck I s = .ok s') : Φ s' ≤ Φ s + 3 * L := by
  unfold recheck at h
  obtain ⟨⟨b, u⟩, hu, h⟩ := Res.bind_ok h
  cases h
  have := check_timed hL hc false 2 s b u hu
  norm_num at this
  linarith

/-! ## C130 -/

/-- Without `exitOnDualInfeas` the check always ends normally. -/
theorem recheck_total (I : SolverImpl σ) (s : σ) : ∃ s', recheck I s = .ok s' := by
  unfold recheck
  obtain ⟨m, c, t, ht⟩ := checkSolverOptimality_cases I false 2 s
  rw [ht]
  unfold checkTail
  split
  · exact ⟨_, rfl⟩
  · split
    · simp only
      generalize (if c < m then I.resolve t else t) = u
      split
      · exact ⟨_, rfl⟩
      · split
        · exact ⟨_, rfl⟩
        · split <;> exact ⟨_, rfl⟩
    · exact ⟨_, rfl⟩

theorem prlpResolve_stages {p : PrlpImpl σ} {INF t : ℚ} {s s' : σ} (h : prlpResolve p INF t s = .ok s') :
    ∃ s1 s2, recheck (p.within t) (p.base.resolve (p.setSeconds t (p.resetIter s))) = .ok s1 ∧
      prlpNanRetry p t s1 = .ok s2 ∧ prlpInfRetry p INF t s2 = .ok s' := by
  unfold prlpResolve at h
  obtain ⟨s1, h1, h⟩ := Res.bind_ok h
  obtain ⟨s2, h2, h⟩ := Res.bind_ok h
  exact ⟨s1, s2, h1, h2, h⟩

/-- **C130, no needless work.** If the answer of the first run, after the usual check, is neither NaN (of an LP not
known to be infeasible) nor minus infinity, it is the result. -/
theorem prlpResolve_plain {p : PrlpImpl σ} {INF t : ℚ} {s s1 : σ}
    (h : recheck (p.within t) (p.base.resolve (p.setSeconds t (p.resetIter s))) = .ok s1)
    (hn : p.nanObj s1 = true → p.base.isPrimalInf s1 = true)
    (hi : p.base.isOptimal s1 = true → isNegInfinity (p.base.objValue s1) (-INF) = false) :
    prlpResolve p INF t s = .ok s1 := by
  have h2 : prlpNanRetry p t s1 = .ok s1 := by
    unfold prlpNanRetry
    cases a : p.nanObj s1
    · simp
    · simp [hn a]
  have h3 : prlpInfRetry p INF t s1 = .ok s1 := by
    unfold prlpInfRetry
    cases a : p.base.isOptimal s1
    · simp
    · simp [hi a]
  unfold prlpResolve prlpCheck
  rw [h]
  simp only [Res.bind, h2, h3]

/-- **C130, retries.** A NaN objective value of an LP not known to be infeasible is never taken from the first run: the
LP has been solved again from scratch. The same holds for an optimal value of minus infinity. -/
theorem prlpResolve_retried {p : PrlpImpl σ} {INF t : ℚ} {s s' : σ} (h : prlpResolve p INF t s = .ok s') :
    (p.nanObj s' = true → p.base.isPrimalInf s' = false →
      ∃ u, recheck (p.within t) (p.base.initialSolve (p.setSeconds t u)) = .ok s') ∧
    (p.base.isOptimal s' = true → p.nanObj s' = false → isNegInfinity (p.base.objValue s') (-INF) = true →
      ∃ u, recheck (p.within t) (p.base.initialSolve (p.setSeconds t u)) = .ok s') := by
  obtain ⟨s1, s2, h1, h2, h3⟩ := prlpResolve_stages h
  unfold prlpInfRetry prlpCheck at h3
  split at h3
  · exact ⟨fun _ _ => ⟨s2, h3⟩, fun _ _ _ => ⟨s2, h3⟩⟩
  · rename_i hc
    cases h3
    unfold prlpNanRetry prlpCheck at h2
    split at h2
    · exact ⟨fun _ _ => ⟨_, h2⟩, fun _ _ _ => ⟨_, h2⟩⟩
    · rename_i hd
      cases h2
      constructor
      · intro a b
        simp [a, b] at hd
      · intro a b c
        simp [a, b, c] at hc

/-- **C130, termination.** Solving the point-ray LP never ends the process. -/
theorem prlpResolve_total (p : PrlpImpl σ) (INF t : ℚ) (s : σ) : ∃ s', prlpResolve p INF t s = .ok s' := by
  unfold prlpResolve prlpCheck
  obtain ⟨s1, h1⟩ := recheck_total (p.within t) (p.base.resolve (p.setSeconds t (p.resetIter s)))
  rw [h1]
  simp only [Res.bind]
  have h2 : ∃ s2, prlpNanRetry p t s1 = .ok s2 := by
    unfold prlpNanRetry prlpCheck
    split
    · exact recheck_total _ _
    · exact ⟨_, rfl⟩
  obtain ⟨s2, h2⟩ := h2
  rw [h2]
  simp only
  unfold prlpInfRetry prlpCheck
  split
  · exact recheck_total _ _
  · exact ⟨_, rfl⟩

/-- **C130, result.** The return value is 0 exactly if the LP solver is left with a proven optimal solution;
otherwise it names a status that the solver does report, and the catch-all is used only if none of the others
applies. The status handed on agrees with it. -/
theorem prlpCode_spec (p : PrlpImpl σ) (sol : σ → List ℚ) (s : σ) :
    (prlpCode p s = none ↔ p.base.isOptimal s = true) ∧
    (prlpCode p s = some .DUAL_INFEASIBLE → p.base.isDualInf s = true) ∧
    (prlpCode p s = some .ITERATION_LIMIT → p.base.isIterLimit s = true) ∧
    (prlpCode p s = some .TIME_LIMIT → p.base.hitTime s = true ∧ p.base.isIterLimit s = false) ∧
    (prlpCode p s = some .ABANDONED → p.abandoned s = true) ∧
    (prlpCode p s = some .UNKNOWN ↔ p.base.isOptimal s = false ∧ p.base.isDualInf s = false ∧
      p.base.isIterLimit s = false ∧ p.base.hitTime s = false ∧ p.abandoned s = false) ∧
    resolvePRLP (prlpStatus p sol s) = prlpCode p s ∧
    (∀ x, prlpStatus p sol s = .optimal x ↔ p.base.isOptimal s = true ∧ x = sol s) := by
  unfold prlpCode prlpStatus
  cases p.base.isOptimal s <;> cases p.base.isDualInf s <;> cases p.base.isIterLimit s <;>
    cases p.base.hitTime s <;> cases p.abandoned s <;> simp [resolvePRLP, eq_comm]

/-- An infeasible LP is not told apart: the reason counted is the catch-all, not `PRIMAL_INFEASIBLE`. -/
theorem prlpCode_never_primal (p : PrlpImpl σ) (s : σ) : prlpCode p s ≠ some .PRIMAL_INFEASIBLE := by
  unfold prlpCode
  split
  · simp
  · split
    · simp
    · split
      · simp
      · split
        · simp
        · split <;> simp

theorem within_counts {p : PrlpImpl σ} {cnt : σ → ℕ} (h : Runs p cnt) (t : ℚ) : Counts (p.within t) cnt where
  timed s := by
    show cnt (p.setSeconds t (p.resetIter s)) ≤ cnt s
    rw [h.set, h.reset]
  resolve := h.resolve
  cleanup := h.cleanup
  dualValuesPass := h.dual
  setStatus2 := h.status
  enableFact := h.enable
  disableFact := h.disable

/-- **C130, work.** The LP solver is run at most 18 times for one objective. -/
theorem prlpResolve_runs {p : PrlpImpl σ} {cnt : σ → ℕ} (hr : Runs p cnt) {INF t : ℚ} {s s' : σ}
    (h : prlpResolve p INF t s = .ok s') : cnt s' ≤ cnt s + 18 := by
  obtain ⟨s1, s2, h1, h2, h3⟩ := prlpResolve_stages h
  have hk : ∀ {a b}, recheck (p.within t) a = .ok b → cnt b ≤ cnt a + 5 := by
    intro a b hab
    unfold recheck at hab
    obtain ⟨⟨c, u⟩, hu, hab⟩ := Res.bind_ok hab
    cases hab
    simpa using checkSolverOptimality_calls (p.within t) (within_counts hr t) false 2 a c u hu
  have e1 := hk h1
  have f1 := hr.resolve (p.setSeconds t (p.resetIter s))
  rw [hr.set, hr.reset] at f1
  have e2 : cnt s2 ≤ cnt s1 + 6 := by
    unfold prlpNanRetry prlpCheck at h2
    split at h2
    · have a := hk h2
      have b := hr.initialSolve (p.setSeconds t (p.resetIter s1))
      rw [hr.set, hr.reset] at b
      omega
    · cases h2; omega
  have e3 : cnt s' ≤ cnt s2 + 6 := by
    unfold prlpInfRetry prlpCheck at h3
    split at h3
    · have a := hk h3
      have b := hr.initialSolve (p.setSeconds t s2)
      rw [hr.set] at b
      omega
    · cases h3; omega
  omega

theorem within_timed {p : PrlpImpl σ} {clock deadline : σ → ℚ} (h : Clock p clock deadline) {t : ℚ} (ht : 0 ≤ t) :
    Timed (p.within t) (fun s => max (clock s) (deadline s)) t where
  timed s := by
    show max (clock (p.setSeconds t (p.resetIter s))) (deadline (p.setSeconds t (p.resetIter s))) ≤ _
    rw [(h.set t _).1, (h.set t _).2, (h.reset s).1]
    have := le_max_left (clock s) (deadline s)
    exact max_le (by linarith) (by linarith)
  resolve s := by
    show max (clock (p.base.resolve s)) (deadline (p.base.resolve s)) ≤ _
    rw [(h.resolve s).2]; exact max_le (h.resolve s).1 (le_max_right _ _)
  cleanup k s := by
    show max (clock (p.base.cleanup k s)) (deadline (p.base.cleanup k s)) ≤ _
    rw [(h.cleanup k s).2]; exact max_le (h.cleanup k s).1 (le_max_right _ _)
  dual s := by
    show max (clock (p.base.dualValuesPass s)) (deadline (p.base.dualValuesPass s)) ≤ _
    rw [(h.dual s).2]; exact max_le (h.dual s).1 (le_max_right _ _)
  status s := by
    show max (clock (p.base.setStatus2 s)) (deadline (p.base.setStatus2 s)) ≤ _
    rw [(h.status s).1, (h.status s).2]
  enable s := by
    show max (clock (p.base.enableFact s)) (deadline (p.base.enableFact s)) ≤ _
    rw [(h.enable s).1, (h.enable s).2]
  disable s := by
    show max (clock (p.base.disableFact s)) (deadline (p.base.disableFact s)) ≤ _
    rw [(h.disable s).1, (h.disable s).2]

/-- **C130, time.** With a nonnegative time limit, solving for one objective takes at most twelve times that limit,
whatever deadline was in force before. -/
theorem prlpResolve_time {p : PrlpImpl σ} {clock deadline : σ → ℚ} (hk : Clock p clock deadline) {INF t : ℚ}
    (ht : 0 ≤ t) {s s' : σ} (h : prlpResolve p INF t s = .ok s') : clock s' ≤ clock s + 12 * t := by
  obtain ⟨s1, s2, h1, h2, h3⟩ := prlpResolve_stages h
  have hT := within_timed hk ht
  have e0 := recheck_timed ht hT h1
  have a0 : max (clock (p.base.resolve (p.setSeconds t (p.resetIter s))))
      (deadline (p.base.resolve (p.setSeconds t (p.resetIter s)))) ≤ clock s + t := by
    have a := hk.resolve (p.setSeconds t (p.resetIter s))
    rw [(hk.set t _).1, (hk.set t _).2, (hk.reset s).1] at a
    rw [a.2]
    have : max (clock s) (clock s + t) = clock s + t := max_eq_right (by linarith)
    rw [this] at a
    exact max_le a.1 (le_refl _)
  have stage : ∀ {u v}, clock u = clock v → ∀ {x}, recheck (p.within t) (p.base.initialSolve (p.setSeconds t u)) = .ok x →
      max (clock x) (deadline x) ≤ max (clock v) (deadline v) + 4 * t := by
    intro u v huv x hx
    have e := recheck_timed ht hT hx
    have a := hk.initialSolve (p.setSeconds t u)
    rw [(hk.set t _).1, (hk.set t _).2, huv] at a
    have hm : max (clock v) (clock v + t) = clock v + t := max_eq_right (by linarith)
    rw [hm] at a
    have b : max (clock (p.base.initialSolve (p.setSeconds t u))) (deadline (p.base.initialSolve (p.setSeconds t u))) ≤
        clock v + t := by rw [a.2]; exact max_le a.1 (le_refl _)
    have := le_max_left (clock v) (deadline v)
    linarith
  have e2 : max (clock s2) (deadline s2) ≤ max (clock s1) (deadline s1) + 4 * t := by
    unfold prlpNanRetry prlpCheck at h2
    split at h2
    · exact stage (hk.reset s1).1 h2
    · cases h2; linarith
  have e3 : max (clock s') (deadline s') ≤ max (clock s2) (deadline s2) + 4 * t := by
    unfold prlpInfRetry prlpCheck at h3
    split at h3
    · exact stage rfl h3
    · cases h3; linarith
  have := le_max_left (clock s') (deadline s')
  linarith

/-! ## A solver that needs all of it -/

/-- Number of the last run, time and deadline. -/
structure SlowState where
  k : ℕ
  clock : ℚ
  deadline : ℚ

/-- The next run, which lasts until the deadline. -/
def SlowState.run (s : SlowState) : SlowState := ⟨s.k + 1, max s.clock s.deadline, s.deadline⟩

/-- A solver whose odd runs end infeasible and whose even runs end optimal, with infeasibilities just below the
tolerance, objective value NaN after run `nan`, and minus infinity after run `inf`. -/
def slowSolver (nan : ℕ → Bool) (inf : ℕ → Bool) : PrlpImpl SlowState where
  base :=
    { isClp := true
      isOptimal := fun s => s.k % 2 == 0
      isPrimalInf := fun s => s.k % 2 == 1
      isDualInf := fun _ => false
      isIterLimit := fun _ => false
      hitTime := fun _ => false
      objValue := fun s => if inf s.k then -(10 ^ 30) else 0
      secondary := fun _ => 0
      sumPrimal := fun _ => 9 / 10 ^ 8
      sumDual := fun _ => 9 / 10 ^ 8
      timed := id
      resolve := SlowState.run
      initialSolve := SlowState.run
      cleanup := fun _ => SlowState.run
      dualValuesPass := SlowState.run
      setStatus2 := id
      enableFact := id
      disableFact := id
      marked := fun _ => false
      markHot := id
      unmarkHot := id
      solveHot := id
      colLower := fun _ _ => 0
      colUpper := fun _ _ => 0
      setColLower := fun _ _ => id
      setColUpper := fun _ _ => id
      rows := fun _ => []
      applyCuts := fun _ => id
      applyRowCuts := fun _ => id
      restoreBase := fun _ => id }
  abandoned := fun _ => false
  nanObj := fun s => nan s.k
  resetIter := id
  setSeconds := fun t s => { s with deadline := s.clock + t }

theorem slow_clock (nan inf : ℕ → Bool) : Clock (slowSolver nan inf) SlowState.clock SlowState.deadline := by
  constructor <;> intros <;> simp [slowSolver, SlowState.run]

theorem slow_runs (nan inf : ℕ → Bool) : Runs (slowSolver nan inf) SlowState.k := by
  constructor <;> intros <;> simp [slowSolver, SlowState.run]

/-- **C130, negation.** The time limit for one objective is not a limit: a run can take twelve times as long (so the
bound above is exact). -/
theorem prlp_time_exceeded : ∃ s', prlpResolve (slowSolver (· == 4) (· == 8)) (10 ^ 20) 5 ⟨0, 0, 0⟩ = .ok s' ∧
    s'.clock = 12 * 5 ∧ s'.k = 12 := by
  refine ⟨⟨12, 60, 60⟩, ?_, by norm_num, rfl⟩
  have : (match prlpResolve (slowSolver (· == 4) (· == 8)) (10 ^ 20) 5 ⟨0, 0, 0⟩ with
    | .ok s => decide (s.k = 12 ∧ s.clock = 60 ∧ s.deadline = 60) | _ => false) = true := by decide +kernel
  split at this
  · rename_i s hs
    obtain ⟨a, b, c⟩ := of_decide_eq_true this
    rw [hs]
    cases s
    simp only at a b c
    subst a; subst b; subst c; rfl
  · cases this

/-- **C130, negation.** A NaN objective value is accepted if it is still there after the retry: the result is 0. -/
theorem prlp_nan_accepted : ∃ s', prlpResolve (slowSolver (fun _ => true) (fun _ => false)) (10 ^ 20) 5 ⟨0, 0, 0⟩ = .ok s' ∧
    prlpCode (slowSolver (fun _ => true) (fun _ => false)) s' = none ∧
    (slowSolver (fun _ => true) (fun _ => false)).nanObj s' = true := by
  obtain ⟨s', h⟩ := prlpResolve_total (slowSolver (fun _ => true) (fun _ => false)) (10 ^ 20) 5 ⟨0, 0, 0⟩
  refine ⟨s', h, ?_, rfl⟩
  have : (match prlpResolve (slowSolver (fun _ => true) (fun _ => false)) (10 ^ 20) 5 ⟨0, 0, 0⟩ with
    | .ok s => prlpCode (slowSolver (fun _ => true) (fun _ => false)) s == none | _ => false) = true := by
    decide +kernel
  rw [h] at this
  simpa using this

/-- **C130, negation.** So is an objective value of minus infinity. -/
theorem prlp_inf_accepted : ∃ s', prlpResolve (slowSolver (fun _ => false) (fun _ => true)) (10 ^ 20) 5 ⟨0, 0, 0⟩ = .ok s' ∧
    prlpCode (slowSolver (fun _ => false) (fun _ => true)) s' = none ∧
    isNegInfinity ((slowSolver (fun _ => false) (fun _ => true)).base.objValue s') (-(10 ^ 20)) = true := by
  obtain ⟨s', h⟩ := prlpResolve_total (slowSolver (fun _ => false) (fun _ => true)) (10 ^ 20) 5 ⟨0, 0, 0⟩
  refine ⟨s', h, ?_, by simp only [slowSolver, if_true]; decide +kernel⟩
  have : (match prlpResolve (slowSolver (fun _ => false) (fun _ => true)) (10 ^ 20) 5 ⟨0, 0, 0⟩ with
    | .ok s => prlpCode (slowSolver (fun _ => false) (fun _ => true)) s == none | _ => false) = true := by
    decide +kernel
  rw [h] at this
  simpa using this

/-! ## Settings -/

/-- **C130, settings.** For a Clp solver the time limit is the one given, both log levels are switched off if no output
is wanted, and nothing else changes, and the answer about the time limit is Clp's; for another solver the result is undefined. -/
theorem lpParameters_spec (verbosity : ℤ) (t : ℚ) (s : AnySolver) :
    (∀ c, s = .clp c → ∃ c', setLPSolverParameters verbosity t s = .ok (.clp c') ∧ c'.seconds = t ∧
      (verbosity = 0 → c' = { c with seconds := t, osiLog := 0, clpLog := 0 }) ∧
      (verbosity ≠ 0 → c' = { c with seconds := t }) ∧ ∀ hit, hitTimeLimit hit s = .ok (hit c)) ∧
    ((∀ c, s ≠ .clp c) → setLPSolverParameters verbosity t s = .undef ∧ setTimeLimit t s = .undef ∧
      ∀ hit, hitTimeLimit hit s = .undef) := by
  constructor
  · rintro c rfl
    unfold setLPSolverParameters setTimeLimit
    by_cases h : verbosity = 0
    · simp [h, hitTimeLimit]
    · simp [h, hitTimeLimit]
  · intro h
    cases s with
    | clp c => exact absurd rfl (h c)
    | other a b d =>
      refine ⟨?_, rfl, fun _ => rfl⟩
      by_cases hv : verbosity = 0 <;> simp [setLPSolverParameters, setTimeLimit, hv]

/-- A solver silenced once stays silent: a later positive verbosity does not bring the output back. -/
theorem lpParameters_silent (v : ℤ) (hv : v ≠ 0) (t t' : ℚ) (c : ClpSettings) :
    (setLPSolverParameters 0 t (.clp c)).bind (setLPSolverParameters v t') =
      .ok (.clp { c with seconds := t', osiLog := 0, clpLog := 0 }) := by
  simp [setLPSolverParameters, setTimeLimit, Res.bind, hv]

/-- Bit 8 of an option word. -/
def bit256 (m : ℤ) : Bool := m / 256 % 2 == 1

/-- **C130, settings.** Preparing a Clp solver for the tree search switches the option 256 on if it was off and
leaves the other options alone. -/
theorem setupCbc_spec {v : ℤ} {t : ℚ} {hot : ℤ} {c : ClpSettings} (h0 : bit256 c.moreSpecial = false)
    (h1 : c.moreSpecial ≤ 2 ^ 31 - 257) :
    ∃ c', setupClpForCbc v t hot (.clp c) = .ok (.clp c') ∧ bit256 c'.moreSpecial = true ∧
      c'.moreSpecial % 256 = c.moreSpecial % 256 ∧ c'.moreSpecial / 512 = c.moreSpecial / 512 ∧
      c'.seconds = t ∧ c'.hotIter = hot ∧ c'.special = 16 ∧ c'.presolveInitial = false ∧ c'.presolveResolve = false := by
  have hb' : c.moreSpecial + 256 ≤ 2147483647 := by omega
  refine ⟨{ (setupClpForStrongBranching hot
    { (if v = 0 then { c with osiLog := 0, clpLog := 0 } else c) with
      seconds := t, presolveInitial := false, presolveResolve := false }) with
      moreSpecial := c.moreSpecial + 256 }, ?_, ?_, ?_, ?_, rfl, rfl, rfl, rfl, rfl⟩
  · unfold setupClpForCbc setLPSolverParameters setTimeLimit
    by_cases hv : v = 0
    · simp [hv, Res.bind, setupClpForStrongBranching, hb']
    · simp [hv, Res.bind, setupClpForStrongBranching, hb']
  · simp only [bit256, beq_eq_false_iff_ne, ne_eq, beq_iff_eq] at h0 ⊢
    omega
  · simp only; omega
  · simp only [bit256, beq_eq_false_iff_ne, ne_eq] at h0 ⊢
    omega

/-- **C130, negation.** Done twice on the same solver, the option is off again and another one is changed. -/
theorem setupCbc_twice {v : ℤ} {t : ℚ} {hot : ℤ} {c : ClpSettings} (h0 : bit256 c.moreSpecial = false)
    (h1 : c.moreSpecial ≤ 2 ^ 31 - 600) :
    ∃ c', (setupClpForCbc v t hot (.clp c)).bind (setupClpForCbc v t hot) = .ok (.clp c') ∧
      bit256 c'.moreSpecial = false ∧ c'.moreSpecial = c.moreSpecial + 512 := by
  have key : ∀ d : ClpSettings, d.moreSpecial ≤ 2 ^ 31 - 257 → ∃ d', setupClpForCbc v t hot (.clp d) = .ok (.clp d') ∧
      d'.moreSpecial = d.moreSpecial + 256 := by
    intro d hd
    have hb' : d.moreSpecial + 256 ≤ 2147483647 := by omega
    refine ⟨{ (setupClpForStrongBranching hot
      { (if v = 0 then { d with osiLog := 0, clpLog := 0 } else d) with
        seconds := t, presolveInitial := false, presolveResolve := false }) with
        moreSpecial := d.moreSpecial + 256 }, ?_, rfl⟩
    unfold setupClpForCbc setLPSolverParameters setTimeLimit
    by_cases hv : v = 0
    · simp [hv, Res.bind, setupClpForStrongBranching, hb']
    · simp [hv, Res.bind, setupClpForStrongBranching, hb']
  obtain ⟨d, hd, hm⟩ := key c (by omega)
  obtain ⟨d', hd', hm'⟩ := key d (by omega)
  refine ⟨d', ?_, ?_, by omega⟩
  · rw [hd]; exact hd'
  · simp only [bit256, beq_eq_false_iff_ne, ne_eq] at h0 ⊢
    omega

example : ∃ c : ClpSettings, bit256 c.moreSpecial = false ∧ c.moreSpecial ≤ 2 ^ 31 - 600 :=
  ⟨⟨1, 1, -1, true, true, 100, 0, 7⟩, by decide +kernel, by norm_num⟩

example : ∃ s', prlpResolve (slowSolver (· == 4) (· == 8)) (10 ^ 20) 5 ⟨0, 0, 0⟩ = .ok s' ∧ s'.clock ≤ 0 + 12 * 5 := by
  obtain ⟨s', h⟩ := prlpResolve_total (slowSolver (· == 4) (· == 8)) (10 ^ 20) 5 ⟨0, 0, 0⟩
  exact ⟨s', h, prlpResolve_time (slow_clock _ _) (by norm_num) h⟩

end VPC
