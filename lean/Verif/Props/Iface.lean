import Verif.Model.Iface
import Verif.Props.SolverOps
import Verif.Props.Files

/-!
# Histories of calls on `VPCSolverInterface` (C123) and reading an instance (C124)
-/
namespace VPC

variable {σ δ : Type}

/-! ## Specification -/

/-- A point is a solution of the problem in the solver: it respects bounds and integrality (`box`) and
all rows. -/
def SolOf (E : IfaceEnv σ δ) (box : σ → Vec → Prop) (s : σ) (x : Vec) : Prop :=
  box s x ∧ ∀ r ∈ E.impl.rows s, r.Sat x

/-- The environment behaves: solving, flipping the objective and generating cuts change neither the rows
nor bounds and integrality of the problem; adding cuts changes rows only; the generator
keeps the collection, adding cuts that every solution of the solver's problem satisfies. -/
structure EnvLaws (E : IfaceEnv σ δ) (keep : RowCut → Bool) (box : σ → Vec → Prop) : Prop where
  rows : RowLaws E.impl keep
  box_stable : ∀ b, Stable E.impl (fun s => box s = b)
  box_apply : ∀ l s, box (E.impl.applyCuts l s) = box s
  box_applyRow : ∀ l s, box (E.impl.applyRowCuts l s) = box s
  flip_rows : ∀ s, E.impl.rows (E.flip s) = E.impl.rows s
  flip_box : ∀ s, box (E.flip s) = box s
  gen : ∀ s cs s' cs' d, E.gen s cs = .ok (s', cs', d) →
    E.impl.rows s' = E.impl.rows s ∧ box s' = box s ∧
    ∃ new, cs' = cs ++ new ∧ ∀ c ∈ new, ∀ x, SolOf E box s x → c.Sat x

/-- No call of the history loads a problem. -/
def NoLoad (ops : List (IfaceOp σ)) : Prop := ∀ si, IfaceOp.load si ∉ ops

theorem selected_mem (mask : List Bool) (cs : List RowCut) (c : RowCut) (h : c ∈ selected mask cs) :
    c ∈ cs := by
  unfold selected at h
  obtain ⟨p, hp, rfl⟩ := List.mem_map.mp h
  exact (List.of_mem_zip (List.mem_filter.mp hp).1).2

/-- What holds between calls, relative to the problem loaded last. -/
structure IfaceInv (E : IfaceEnv σ δ) (box : σ → Vec → Prop) (base : σ) (o : Iface σ δ) : Prop where
  rows : ∃ added, E.impl.rows o.solver = E.impl.rows base ++ added ∧
    ∀ c ∈ added, ∀ x, SolOf E box base x → c.Sat x
  boxes : box o.solver = box base
  cuts : ∀ c ∈ o.cuts, ∀ x, SolOf E box base x → c.Sat x

theorem IfaceInv.sol {E : IfaceEnv σ δ} {box : σ → Vec → Prop} {base : σ} {o : Iface σ δ}
    (h : IfaceInv E box base o) (x : Vec) : SolOf E box o.solver x ↔ SolOf E box base x := by
  obtain ⟨added, e, ha⟩ := h.rows
  constructor
  · rintro ⟨hb, hr⟩
    exact ⟨h.boxes ▸ hb, fun r hr' => hr r (by rw [e]; exact List.mem_append_left _ hr')⟩
  · intro hx
    refine ⟨h.boxes ▸ hx.1, fun r hr => ?_⟩
    rw [e] at hr
    rcases List.mem_append.mp hr with hr | hr
    · exact hx.2 r hr
    · exact ha r hr x hx

theorem maskedApply_box {E : IfaceEnv σ δ} {box : σ → Vec → Prop}
    (hb : ∀ l s, box (E.impl.applyRowCuts l s) = box s) (mask : List Bool) (cs : List RowCut) (s s' : σ)
    (h : maskedApply E.impl mask cs s = .ok s') : box s' = box s := by
  induction cs generalizing mask s with
  | nil => cases mask <;> (simp only [maskedApply, Res.ok.injEq] at h; rw [h])
  | cons c cs ih =>
    cases mask with
    | nil => simp [maskedApply] at h
    | cons b bs =>
      simp only [maskedApply] at h
      rw [ih _ _ h]
      cases b
      · rfl
      · exact hb _ _

theorem step_inv {E : IfaceEnv σ δ} {keep : RowCut → Bool} {box : σ → Vec → Prop}
    (L : EnvLaws E keep box) (base : σ) (o : Iface σ δ) (op : IfaceOp σ)
    (hop : ∀ si, op ≠ .load si) (h : IfaceInv E box base o) (r : Iface σ δ × Reply)
    (hr : ifaceStep E o op = .ok r) : IfaceInv E box base r.1 := by
  obtain ⟨added, e, ha⟩ := h.rows
  cases op with
  | load si => exact absurd rfl (hop si)
  | solve =>
    simp only [ifaceStep, Res.ok.injEq] at hr
    subst hr
    exact ⟨⟨added, ((L.rows.stable _).initialSolve _ rfl).trans e, ha⟩,
      ((L.box_stable _).initialSolve _ rfl).trans h.boxes, h.cuts⟩
  | resolve =>
    simp only [ifaceStep, Res.ok.injEq] at hr
    subst hr
    exact ⟨⟨added, ((L.rows.stable _).resolve _ rfl).trans e, ha⟩,
      ((L.box_stable _).resolve _ rfl).trans h.boxes, h.cuts⟩
  | generate =>
    simp only [ifaceStep, ifaceGenerate] at hr
    split at hr
    · simp only [Res.ok.injEq] at hr
      subst hr
      exact h
    · obtain ⟨⟨s', cs', d⟩, hg, hr⟩ := Res.bind_ok hr
      simp only [Res.ok.injEq] at hr
      subst hr
      obtain ⟨h1, h2, new, rfl, hn⟩ := L.gen _ _ _ _ _ hg
      refine ⟨⟨added, h1.trans e, ha⟩, h2.trans h.boxes, fun c hc x hx => ?_⟩
      rcases List.mem_append.mp hc with hc | hc
      · exact h.cuts c hc x hx
      · exact hn c hc x ((h.sol x).mpr hx)
  | apply mask clear =>
    simp only [ifaceStep, ifaceApply] at hr
    obtain ⟨⟨n, s', cs'⟩, hv, hr⟩ := Res.bind_ok hr
    simp only [Res.ok.injEq] at hr
    subst hr
    have key : (∃ l, E.impl.rows s' = E.impl.rows o.solver ++ l ∧ ∀ c ∈ l, c ∈ o.cuts) ∧
        box s' = box o.solver ∧ ∀ c ∈ cs', c ∈ o.cuts := by
      cases mask with
      | none =>
        simp only [vpcApplyCuts, Res.ok.injEq, Prod.mk.injEq] at hv
        obtain ⟨_, rfl, rfl⟩ := hv
        refine ⟨⟨_, L.rows.applyCuts _ _, fun c hc => (List.mem_filter.mp hc).1⟩, L.box_apply _ _, ?_⟩
        intro c hc
        cases clear
        · simpa using hc
        · simp at hc
      | some bs =>
        simp only [vpcApplyCuts] at hv
        obtain ⟨s1, hm, hv⟩ := Res.bind_ok hv
        simp only [Res.ok.injEq, Prod.mk.injEq] at hv
        obtain ⟨_, rfl, rfl⟩ := hv
        have hl : o.cuts.length ≤ bs.length := by
          by_contra hc
          have := (maskedApply_spec E.impl L.rows bs o.cuts o.solver).1.mpr (by omega)
          rw [this] at hm
          cases hm
        obtain ⟨s2, h2, h3⟩ := (maskedApply_spec E.impl L.rows bs o.cuts o.solver).2 hl
        rw [hm, Res.ok.injEq] at h2
        subst h2
        refine ⟨⟨_, h3, fun c hc => selected_mem _ _ _ hc⟩, maskedApply_box L.box_applyRow _ _ _ _ hm, ?_⟩
        intro c hc
        cases clear
        · simpa using hc
        · simp at hc
    obtain ⟨⟨l, hl, hlc⟩, hb, hcs⟩ := key
    refine ⟨⟨added ++ l, by rw [hl, e, List.append_assoc], ?_⟩, hb.trans h.boxes,
      fun c hc => h.cuts c (hcs c hc)⟩
    intro c hc x hx
    rcases List.mem_append.mp hc with hc | hc
    · exact ha c hc x hx
    · exact h.cuts c (hlc c hc) x hx

theorem run_inv {E : IfaceEnv σ δ} {keep : RowCut → Bool} {box : σ → Vec → Prop}
    (L : EnvLaws E keep box) (base : σ) (ops : List (IfaceOp σ)) (hops : NoLoad ops) (o : Iface σ δ)
    (h : IfaceInv E box base o) (r : Iface σ δ × List Reply)
    (hr : ifaceRun E o ops = .ok r) : IfaceInv E box base r.1 := by
  induction ops generalizing o r with
  | nil =>
    simp only [ifaceRun, Res.ok.injEq] at hr
    subst hr
    exact h
  | cons op ops ih =>
    obtain ⟨q, hq, hr⟩ := Res.bind_ok (show (ifaceStep E o op).bind _ = _ from hr)
    obtain ⟨q', hq', hr⟩ := Res.bind_ok hr
    simp only [Res.ok.injEq] at hr
    subst hr
    exact ih (fun si hsi => hops si (List.mem_cons_of_mem _ hsi)) q.1
      (step_inv L base o op (fun si e => hops si (by rw [e]; exact List.mem_cons_self)) h q hq) q' hq'

/-! ## C123: the problem in the object keeps its solutions -/

/-- **C123, when the collection is empty at the time of loading.** After loading `si`, whatever calls
follow (solving, generating, applying any selection any number of times, with or without clearing): the
solutions of the problem in the object are those of `si`, and every collected cut holds at each of
them. -/
theorem iface_same_solutions_partial {E : IfaceEnv σ δ} {keep : RowCut → Bool} {box : σ → Vec → Prop}
    (L : EnvLaws E keep box) (si : σ) (ops : List (IfaceOp σ)) (hops : NoLoad ops) (o : Iface σ δ)
    (hempty : o.cuts = []) (r : Iface σ δ × List Reply)
    (hr : ifaceRun E o (.load si :: ops) = .ok r) (x : Vec) :
    (SolOf E box r.1.solver x ↔ SolOf E box si x) ∧ (SolOf E box si x → ∀ c ∈ r.1.cuts, c.Sat x) := by
  obtain ⟨q, hq, hr⟩ := Res.bind_ok (show (ifaceStep E o (.load si)).bind _ = _ from hr)
  obtain ⟨q', hq', hr⟩ := Res.bind_ok hr
  simp only [Res.ok.injEq] at hr
  subst hr
  simp only [ifaceStep, Res.ok.injEq] at hq
  subst hq
  have h0 : IfaceInv E box si (ifaceLoad E si o) :=
    ⟨⟨[], by simp [ifaceLoad, L.flip_rows], by simp⟩, L.flip_box _, by simp [ifaceLoad, hempty]⟩
  have h1 := run_inv L si ops hops _ h0 q' hq'
  exact ⟨h1.sol x, fun hx c hc => h1.cuts c hc x hx⟩

/-- Clearing while applying empties the collection, so that the next problem can be loaded safely. -/
theorem apply_clear_empties (E : IfaceEnv σ δ) (mask : Option (List Bool)) (o : Iface σ δ)
    (r : Iface σ δ × Reply) (h : ifaceStep E o (.apply mask true) = .ok r) : r.1.cuts = [] := by
  simp only [ifaceStep, ifaceApply] at h
  obtain ⟨⟨n, s', cs'⟩, hv, h⟩ := Res.bind_ok h
  simp only [Res.ok.injEq] at h
  subst h
  cases mask with
  | none =>
    simp only [vpcApplyCuts, Res.ok.injEq, Prod.mk.injEq] at hv
    exact hv.2.2.symm
  | some bs =>
    simp only [vpcApplyCuts] at hv
    obtain ⟨s1, _, hv⟩ := Res.bind_ok hv
    simp only [Res.ok.injEq, Prod.mk.injEq] at hv
    exact hv.2.2.symm

/-- Loading never touches the collection nor the disjunction: those of the previous problem stay. -/
theorem load_keeps_old (E : IfaceEnv σ δ) (o : Iface σ δ) (si : σ) (r : Iface σ δ × Reply)
    (h : ifaceStep E o (.load si) = .ok r) :
    r.1.cuts = o.cuts ∧ r.1.disj = o.disj ∧ r.1.solver = E.flip si := by
  simp only [ifaceStep, Res.ok.injEq] at h
  subst h
  exact ⟨rfl, rfl, rfl⟩

/-- A solver for the examples: its rows, and whether it was solved. -/
abbrev IfaceLp := List RowCut × Bool

/-- See `IfaceLp`. -/
def ifaceExImpl : SolverImpl IfaceLp where
  isClp := true
  isOptimal s := s.2
  isPrimalInf _ := false
  isDualInf _ := false
  isIterLimit _ := false
  hitTime _ := false
  objValue _ := 0
  secondary _ := 0
  sumPrimal _ := 0
  sumDual _ := 0
  timed := id
  resolve s := (s.1, true)
  initialSolve s := (s.1, true)
  cleanup _ s := s
  dualValuesPass s := s
  setStatus2 := id
  enableFact := id
  disableFact := id
  marked _ := false
  markHot := id
  unmarkHot := id
  solveHot := id
  colLower _ _ := 0
  colUpper _ _ := 0
  setColLower _ _ := id
  setColUpper _ _ := id
  rows s := s.1
  applyCuts l s := (s.1 ++ l, false)
  applyRowCuts l s := (s.1 ++ l, false)
  restoreBase n s := (s.1.take n, s.2)

/-- The row `2 x₀ ≤ 1`. -/
def ifaceHalf : RowCut := ⟨[(0, -2)], -1⟩

/-- The cut `x₀ ≤ 0`. -/
def ifaceZero : RowCut := ⟨[(0, -1)], 0⟩

/-- A generator that rounds `2 x₀ ≤ 1` down and otherwise finds neither a cut nor a disjunction. -/
def ifaceExGen (s : IfaceLp) (cs : List RowCut) : Res (IfaceLp × List RowCut × Option ℕ) :=
  if ifaceHalf ∈ s.1 then .ok (s, cs ++ [ifaceZero], some 2) else .ok (s, cs, none)

/-- The environment of the examples. -/
def ifaceEx : IfaceEnv IfaceLp ℕ := ⟨ifaceExImpl, id, fun cs _ => cs.length, ifaceExGen⟩

/-- `x₀` is an integer. -/
def ifaceExBox (_ : IfaceLp) (x : Vec) : Prop := ∃ k : ℤ, x 0 = k

theorem ifaceEx_laws : EnvLaws ifaceEx (fun _ => true) ifaceExBox where
  rows := ⟨fun r => ⟨fun _ h => h, fun _ h => h, fun _ h => h, fun _ _ h => h, fun _ h => h, fun _ h => h, fun _ h => h,
    fun _ h => h⟩, fun _ _ => rfl, fun l s => by simp [ifaceEx, ifaceExImpl], fun _ _ => rfl⟩
  box_stable := fun b => ⟨fun _ h => h, fun _ h => h, fun _ h => h, fun _ _ h => h, fun _ h => h, fun _ h => h,
    fun _ h => h, fun _ h => h⟩
  box_apply _ _ := rfl
  box_applyRow _ _ := rfl
  flip_rows _ := rfl
  flip_box _ := rfl
  gen := by
    intro s cs s' cs' d h
    simp only [ifaceEx, ifaceExGen] at h
    split at h
    · rename_i hm
      simp only [Res.ok.injEq, Prod.mk.injEq] at h
      obtain ⟨rfl, rfl, rfl⟩ := h
      refine ⟨rfl, rfl, [ifaceZero], rfl, ?_⟩
      intro c hc x hx
      obtain rfl := List.mem_singleton.mp hc
      have h1 := hx.2 ifaceHalf hm
      obtain ⟨k, hk⟩ := hx.1
      simp [RowCut.Sat, ifaceHalf, ifaceZero, sdot] at h1 ⊢
      rw [hk] at h1 ⊢
      have h2 : (k : ℚ) < 1 := by linarith
      have h3 : k < 1 := by exact_mod_cast h2
      have h4 : k ≤ 0 := by omega
      exact_mod_cast h4
    · simp only [Res.ok.injEq, Prod.mk.injEq] at h
      obtain ⟨rfl, rfl, rfl⟩ := h
      exact ⟨rfl, rfl, [], by simp, by simp⟩

/-- A fresh object (nothing loaded). -/
def ifaceExFresh : Iface IfaceLp ℕ := ⟨([], false), [], none⟩

/-- Non-vacuity of `iface_same_solutions_partial`: load, solve, generate, apply, solve, generate. -/
example : EnvLaws ifaceEx (fun _ => true) ifaceExBox ∧ ifaceExFresh.cuts = [] ∧
    NoLoad (σ := IfaceLp) [.solve, .generate, .apply none false, .generate, .resolve, .generate] ∧
    ∃ r, ifaceRun ifaceEx ifaceExFresh (.load ([ifaceHalf], false) ::
        [.solve, .generate, .apply none false, .generate, .resolve, .generate]) = .ok r ∧
      r.1.solver = ([ifaceHalf, ifaceZero], true) ∧ r.1.cuts = [ifaceZero, ifaceZero] ∧
      r.2 = [.done, .done, .done, .applied 1, .threw, .done, .done] :=
  ⟨ifaceEx_laws, rfl, by intro si h; simp at h, _, rfl, by decide +kernel, by decide +kernel,
    by decide +kernel⟩

/-- **C123 is violated**: cuts generated for one problem are applied to the next one loaded. Here the
generator and the solver are faultless, `x₀ = 1` solves the second problem (which has no rows), and after
applying "the cuts" it does not. -/
theorem load_applies_old_cuts :
    ∃ r, EnvLaws ifaceEx (fun _ => true) ifaceExBox ∧
      ifaceRun ifaceEx ifaceExFresh [.load ([ifaceHalf], false), .solve, .generate, .load ([], false),
        .apply none false] = .ok r ∧
      SolOf ifaceEx ifaceExBox ([], false) (fun _ => 1) ∧
      ¬ SolOf ifaceEx ifaceExBox r.1.solver (fun _ => 1) := by
  refine ⟨_, ifaceEx_laws, rfl, ⟨⟨1, by norm_num⟩, by simp [ifaceEx, ifaceExImpl]⟩, ?_⟩
  intro h
  have := h.2 ifaceZero (by decide +kernel)
  simp [RowCut.Sat, ifaceZero, sdot] at this
  norm_num at this

/-! ## C123: what the calls do -/

/-- Applying without clearing `k` times adds the collection `k` times. -/
theorem apply_repeated (E : IfaceEnv σ δ) (keep : RowCut → Bool) (hR : RowLaws E.impl keep) (k : ℕ)
    (o : Iface σ δ) :
    ∃ r, ifaceRun E o (List.replicate k (.apply none false)) = .ok r ∧ r.1.cuts = o.cuts ∧
      E.impl.rows r.1.solver =
        E.impl.rows o.solver ++ (List.replicate k (o.cuts.filter keep)).flatten := by
  induction k generalizing o with
  | zero => exact ⟨_, rfl, rfl, by simp⟩
  | succ k ih =>
    obtain ⟨r, h1, h2, h3⟩ := ih { o with solver := E.impl.applyCuts o.cuts o.solver }
    refine ⟨(r.1, .applied (E.numApplied o.cuts o.solver) :: r.2), ?_, h2, ?_⟩
    · simp only [List.replicate_succ, ifaceRun, ifaceStep, ifaceApply, vpcApplyCuts, Res.bind]
      simp only [Bool.false_eq_true, if_false]
      rw [h1]
    · dsimp only at h3 ⊢
      rw [h3, hR.applyCuts, List.replicate_succ, List.flatten_cons, List.append_assoc]

example : ∃ r, ifaceRun ifaceEx ⟨([], true), [ifaceZero], none⟩
    (List.replicate 2 (.apply none false)) = .ok r ∧ r.1.solver.1 = [ifaceZero, ifaceZero] :=
  ⟨_, rfl, by decide +kernel⟩

/-- Generating cuts needs an optimal LP; otherwise an exception is thrown and the object is unchanged.
In particular nothing can be generated between applying cuts and solving again, if the solver then
does not claim optimality. -/
theorem generate_needs_optimal (E : IfaceEnv σ δ) (o : Iface σ δ) :
    (E.impl.isOptimal o.solver = false → ifaceStep E o .generate = .ok (o, .threw)) ∧
    (∀ r, ifaceStep E o .generate = .ok r → (r.2 = .threw ↔ E.impl.isOptimal o.solver = false)) := by
  constructor
  · intro h; simp [ifaceStep, ifaceGenerate, h]
  · intro r hr
    simp only [ifaceStep, ifaceGenerate] at hr
    split at hr
    · rename_i h
      simp only [Res.ok.injEq] at hr
      subst hr
      simpa using h
    · rename_i h
      obtain ⟨a, _, hr⟩ := Res.bind_ok hr
      simp only [Res.ok.injEq] at hr
      subst hr
      simpa using h

example : ifaceExImpl.isOptimal ifaceExFresh.solver = false := rfl

/-- After generating, the object's disjunction is the generator's; if that has none, the one of an
earlier call stays. -/
theorem generate_disj (E : IfaceEnv σ δ) (o : Iface σ δ) (s : σ) (cs : List RowCut) (d : Option δ)
    (hopt : E.impl.isOptimal o.solver = true) (hg : E.gen o.solver o.cuts = .ok (s, cs, d)) :
    ∃ r, ifaceStep E o .generate = .ok (r, .done) ∧ r.solver = s ∧ r.cuts = cs ∧
      (∀ d', d = some d' → r.disj = some d') ∧ (d = none → r.disj = o.disj) := by
  refine ⟨⟨s, cs, keepDisj d o.disj⟩, ?_, rfl, rfl, ?_, ?_⟩
  · simp [ifaceStep, ifaceGenerate, hopt, hg, Res.bind]
  · rintro d' rfl; rfl
  · rintro rfl; rfl

example : ifaceEx.gen ([ifaceHalf], true) [] = .ok (([ifaceHalf], true), [ifaceZero], some 2) := by
  decide +kernel

/-- **C123 is violated** for the disjunction: after a call that had none, on another problem, the object
still shows the disjunction of the first problem. -/
theorem stale_disjunction :
    ∃ r, ifaceRun ifaceEx ifaceExFresh [.load ([ifaceHalf], false), .solve, .generate, .load ([], false), .solve,
        .generate] = .ok r ∧ ifaceEx.gen ([], true) [ifaceZero] = .ok (([], true), [ifaceZero], none) ∧
      r.1.disj = some 2 := ⟨_, rfl, by decide +kernel, by decide +kernel⟩

/-- A history is undefined only where a selection shorter than the collection is given (or the generator
itself misbehaves). -/
theorem apply_defined (E : IfaceEnv σ δ) (keep : RowCut → Bool) (hR : RowLaws E.impl keep)
    (mask : Option (List Bool)) (clear : Bool) (o : Iface σ δ) :
    (ifaceStep E o (.apply mask clear) = .undef ↔ ∃ bs, mask = some bs ∧ bs.length < o.cuts.length) ∧
    ifaceStep E o (.apply mask clear) ≠ .exit := by
  cases mask with
  | none => simp [ifaceStep, ifaceApply, vpcApplyCuts, Res.bind]
  | some bs =>
    obtain ⟨h1, h2⟩ := maskedApply_spec E.impl hR bs o.cuts o.solver
    by_cases hl : bs.length < o.cuts.length
    · simp [ifaceStep, ifaceApply, vpcApplyCuts, h1.mpr hl, Res.bind, hl]
    · obtain ⟨s', h3, _⟩ := h2 (by omega)
      simp [ifaceStep, ifaceApply, vpcApplyCuts, h3, Res.bind, hl]

example : ifaceStep ifaceEx ⟨([], true), [ifaceZero, ifaceZero], none⟩ (.apply (some [true]) false) = .undef :=
  rfl

/-! ## C124: reading an instance -/

/-- The reader that belongs to an extension. -/
def readerOf (R : Readers σ) (ext : List Char) : ReadOut σ :=
  if ext = ['l', 'p'] then R.lp else R.mps

/-- **C124, what is guaranteed.** For a file `dir/name.ext`, plain or archived, that exists: the main program
and the interface ask the reader of the extension (LP for `lp`, MPS for everything else), and if they
go on, it is with what that reader produced with a nonnegative status. -/
theorem read_by_extension_partial (fexists : List Char → Bool) (R : Readers σ) (dir n e : List Char)
    (hn : ∀ x ∈ n, ¬ IsSlash x) (he : '.' ∉ e) (ha : ¬ IsArchive e)
    (suffix : List Char) (hsuf : suffix = [] ∨ ∃ z, IsArchive z ∧ suffix = '.' :: z)
    (hex : fexists (dir ++ '/' :: n ++ '.' :: e ++ suffix) = true) :
    let name := dir ++ '/' :: n ++ '.' :: e ++ suffix
    initReadFile fexists R name = ifaceReadFile R name ∧
    (∀ s, ifaceReadFile R name = .read s ↔ ∃ k, 0 ≤ k ∧ readerOf R e = .status k s) ∧
    (ifaceReadFile R name = .exit ↔ (∃ k s, k < 0 ∧ readerOf R e = .status k s) ∨
      (readerOf R e = .exn ∧ e ≠ ['l', 'p'] ∧ e ≠ ['m', 'p', 's'])) := by
  intro name
  have hp : parseFilename ⟨[], [], []⟩ name = (0, ⟨dir, n, e⟩) := by
    rcases hsuf with h | ⟨z, hz, h⟩
    · have := (parse_plain ⟨[], [], []⟩ dir n e '/' (Or.inl rfl) hn he ha).1
      simpa [name, h] using this
    · have := (parse_archived ⟨[], [], []⟩ dir n e z '/' (Or.inl rfl) hn he hz).1
      simpa [name, h] using this
  have hi : ifaceReadFile R name = readByExt R e := by rw [ifaceReadFile, hp]
  have hm : initReadFile fexists R name = readByExt R e := by
    rw [initReadFile, hp]
    simp [name] at hex ⊢
    simp [hex]
  have hlp : "lp".toList = ['l', 'p'] := rfl
  have hmps : "mps".toList = ['m', 'p', 's'] := rfl
  refine ⟨hm.trans hi.symm, ?_, ?_⟩
  · intro s
    rw [hi]
    unfold readByExt readerOf
    rw [hlp, hmps]
    by_cases h1 : e = ['l', 'p']
    · rw [if_pos h1, if_pos h1]
      cases h : R.lp with
      | status k s' =>
        by_cases hk : k < 0
        · simp only [checkStatus, if_pos hk, ReadOut.status.injEq, reduceCtorEq, false_iff]
          rintro ⟨k', h0, rfl, _⟩; omega
        · simp only [checkStatus, if_neg hk, ReadRes.read.injEq, ReadOut.status.injEq]
          exact ⟨fun h => ⟨k, by omega, rfl, h⟩, fun ⟨_, _, _, h⟩ => h⟩
      | exn => simp [checkStatus]
    · rw [if_neg h1, if_neg h1]
      have : ∀ b, checkStatus b R.mps = .read s ↔ ∃ k, 0 ≤ k ∧ R.mps = .status k s := by
        intro b
        cases h : R.mps with
        | status k s' =>
          by_cases hk : k < 0
          · simp only [checkStatus, if_pos hk, ReadOut.status.injEq, reduceCtorEq, false_iff]
            rintro ⟨k', h0, rfl, _⟩; omega
          · simp only [checkStatus, if_neg hk, ReadRes.read.injEq, ReadOut.status.injEq]
            exact ⟨fun h => ⟨k, by omega, rfl, h⟩, fun ⟨_, _, _, h⟩ => h⟩
        | exn => cases b <;> simp [checkStatus]
      split <;> exact this _
  · rw [hi]
    unfold readByExt readerOf
    rw [hlp, hmps]
    by_cases h1 : e = ['l', 'p']
    · rw [if_pos h1, if_pos h1]
      cases h : R.lp with
      | status k s' =>
        by_cases hk : k < 0
        · simp [checkStatus, hk]
        · simp only [checkStatus, if_neg hk, ReadOut.status.injEq, reduceCtorEq, false_iff, false_and,
            or_false]
          rintro ⟨k', _, h0, rfl, _⟩; omega
      | exn => simp [checkStatus, h1]
    · rw [if_neg h1, if_neg h1]
      by_cases h2 : e = ['m', 'p', 's']
      · rw [if_pos h2]
        cases h : R.mps with
        | status k s' =>
          by_cases hk : k < 0
          · simp [checkStatus, hk]
          · simp only [checkStatus, if_neg hk, ReadOut.status.injEq, reduceCtorEq, false_iff, false_and,
              or_false]
            rintro ⟨k', _, h0, rfl, _⟩; omega
        | exn => simp [checkStatus, h2]
      · rw [if_neg h2]
        cases h : R.mps with
        | status k s' =>
          by_cases hk : k < 0
          · simp [checkStatus, hk]
          · simp only [checkStatus, if_neg hk, ReadOut.status.injEq, reduceCtorEq, false_iff, false_and,
              or_false]
            rintro ⟨k', _, h0, rfl, _⟩; omega
        | exn => simp [checkStatus, h1, h2]

example : (∀ x ∈ "bm23".toList, ¬ IsSlash x) ∧ '.' ∉ "lp".toList ∧ ¬ IsArchive "lp".toList ∧
    (∃ z, IsArchive z ∧ ".gz".toList = '.' :: z) := by
  refine ⟨by decide, by decide, ?_, "gz".toList, Or.inl rfl, rfl⟩
  unfold IsArchive; decide

/-- **C124 is violated**: a file in which the reader found errors (positive status) is used. -/
theorem bad_file_used :
    ∃ R : Readers ℕ, R.mps = .status 3 7 ∧
      initReadFile (fun _ => true) R "a/b.mps".toList = .read 7 ∧
      ifaceReadFile R "a/b.mps".toList = .read 7 := ⟨⟨.exn, .status 3 7⟩, rfl, by decide, by decide⟩

/-- **C124 is violated**: an LP file whose extension is not in small letters is handed to the MPS reader. -/
theorem capital_extension :
    ∃ R : Readers ℕ, R.lp = .status 0 7 ∧
      initReadFile (fun _ => true) R "a/b.LP".toList = .exit ∧
      ifaceReadFile R "a/b.LP".toList = .exit := ⟨⟨.status 0 7, .status (-1) 0⟩, rfl, by decide, by decide⟩

/-- A missing file stops the main program; a name that cannot be parsed stops the main program, while the
interface hands it to the MPS reader. -/
theorem missing_or_unparsed (fexists : List Char → Bool) (R : Readers σ) (name : List Char) :
    ((∀ z ∈ [[], ".gz".toList, ".bz2".toList], fexists (name ++ z) = false) →
      initReadFile fexists R name = .exit) ∧
    ('.' ∉ name → initReadFile fexists R name = .exit ∧
      (∀ s, ifaceReadFile R name = .read s ↔ ∃ k, 0 ≤ k ∧ R.mps = .status k s)) := by
  constructor
  · intro h
    have h1 := h [] (by simp)
    have h2 := h ".gz".toList (by simp)
    have h3 := h ".bz2".toList (by simp)
    rw [List.append_nil] at h1
    unfold initReadFile
    rw [h1, h2, h3]
    rfl
  · intro h
    have h1 : (parseFilename ⟨[], [], []⟩ name).1 = 1 :=
      (parse_rejects_iff _ _).mpr (Or.inl h)
    have h2 : (parseFilename ⟨[], [], []⟩ name).2 = ⟨[], [], []⟩ := by
      have : lastSplit (fun c => decide (c = '.')) name = none := by
        rw [lastSplit_none]
        intro c hc
        simp only [decide_eq_false_iff_not]
        rintro rfl
        exact h hc
      simp [parseFilename, this]
    constructor
    · unfold initReadFile
      rw [h1]
      split <;> simp
    · intro s
      rw [ifaceReadFile, h2]
      have e1 : (([] : List Char) = "lp".toList) = False := by simp
      have e2 : (([] : List Char) = "mps".toList) = False := by simp
      simp only [readByExt, e1, e2, if_false]
      cases h : R.mps with
      | status k s' =>
        by_cases hk : k < 0
        · simp only [checkStatus, if_pos hk, ReadOut.status.injEq, reduceCtorEq, false_iff]
          rintro ⟨k', h0, rfl, _⟩; omega
        · simp only [checkStatus, if_neg hk, ReadRes.read.injEq, ReadOut.status.injEq]
          exact ⟨fun h => ⟨k, by omega, rfl, h⟩, fun ⟨_, _, _, h⟩ => h⟩
      | exn => simp [checkStatus]

example : '.' ∉ "noext".toList := by decide

end VPC
