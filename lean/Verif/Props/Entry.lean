import Verif.Model.Entry
import Verif.Props.TmpFile
import Verif.Props.UserCuts
import Verif.Props.Prep

/-!
# C141: branch and bound searches the problem it is given
-/
namespace VPC

/-! ## Specification -/

/-- The points a solver may report: solutions of the problem in memory that satisfy the user cuts. -/
def Job.Sol (j : Job) (x : Vec) : Prop := j.inst.Sol x ∧ ∀ c ∈ j.user, c.Sat x

/-- The points asked for: solutions of the problem given that satisfy the cuts given. -/
def Asked (I : Inst) (cuts : Option (List OsiRow)) (x : Vec) : Prop := I.Sol x ∧ ∀ c ∈ cuts.getD [], c.Sat x

/-- The problem an input stands for. -/
def Input.Means (d : Disk Inst) : Input → Inst → Prop
  | .file f, I => d.files f = some (.prob I)
  | .solver p, I => p = I

/-- The job does what was asked: same points, same objective. -/
structure Job.Does (j : Job) (I : Inst) (cuts : Option (List OsiRow)) : Prop where
  points : ∀ x, j.Sol x ↔ Asked I cuts x
  value : ∀ x, j.inst.value x = I.value x
  sense : j.inst.sense = I.sense

/-! ## Each way -/

theorem geLo_row (c : OsiRow) (x : Vec) :
    (geLo c.lb (sdot c.row x) ∧ leHi c.ub (sdot c.row x)) ↔ c.Sat x := by
  obtain ⟨r, lb, ub⟩ := c
  cases lb <;> cases ub <;> simp [geLo, leHi, OsiRow.Sat]

theorem applyCuts_sol (accepts : OsiRow → Bool) (I : Inst) (cuts : List OsiRow) (x : Vec) :
    (I.applyCuts accepts cuts).Sol x ↔ I.Sol x ∧ ∀ c ∈ cuts, accepts c = true → c.Sat x := by
  simp only [Inst.Sol, MipFeas, Relax.Feas, Inst.applyCuts, List.mem_append, List.mem_map, List.mem_filter]
  constructor
  · rintro ⟨⟨h1, h2, h3⟩, h4⟩
    exact ⟨⟨⟨h1, h2, fun r hr => h3 r (.inl hr)⟩, h4⟩,
      fun c hc ha => (geLo_row c x).1 (h3 _ (.inr ⟨c, ⟨hc, ha⟩, rfl⟩))⟩
  · rintro ⟨⟨⟨h1, h2, h3⟩, h4⟩, h5⟩
    refine ⟨⟨h1, h2, ?_⟩, h4⟩
    rintro r (hr | ⟨c, ⟨hc, ha⟩, rfl⟩)
    · exact h3 r hr
    · exact (geLo_row c x).2 (h5 c hc ha)

theorem cbcJob_does (accepts : OsiRow → Bool) (I : Inst) (cuts : Option (List OsiRow))
    (ha : ∀ c ∈ cuts.getD [], accepts c = true) : (cbcJob accepts I cuts).Does I cuts := by
  cases cuts with
  | none => exact ⟨fun x => by simp [Job.Sol, Asked, cbcJob], fun _ => rfl, rfl⟩
  | some l =>
    refine ⟨fun x => ?_, fun _ => rfl, rfl⟩
    simp only [Job.Sol, Asked, cbcJob, applyCuts_sol, Option.getD_some, List.not_mem_nil, false_imp_iff,
      implies_true, and_true]
    refine and_congr_right fun _ => ⟨fun h c hc => h c hc (ha c hc), fun h c hc _ => h c hc⟩

theorem fileJob_does (e : BBSolver) (logs : Inst → List (List Char × FileC Inst)) (I : Inst)
    (cuts : Option (List OsiRow)) (hc : ∀ c ∈ cuts.getD [], c.ub = none ∧ c.lb ≠ none) (j : Job)
    (h : (fileJob e logs cuts).result I = some j) : j.Does I cuts ∧ j.engine = e := by
  cases h
  refine ⟨⟨fun x => ?_, fun _ => rfl, rfl⟩, rfl⟩
  simp only [Job.Sol, Asked, List.mem_map, forall_exists_index, and_imp, forall_apply_eq_imp_iff₂]
  exact and_congr_right fun _ => forall₂_congr fun c h => ge_same c (hc c h).1 (hc c h).2 x

theorem runFile_ok {s : SolverRun Inst Job} {d d' : Disk Inst} {f : List Char} {j : Job}
    (h : runFile s d f = .ok d' j) : ∃ p, d.files f = some (.prob p) ∧ s.result p = some j := by
  unfold runFile at h
  split at h
  · rename_i p hp
    dsimp only at h
    split at h
    · rename_i r hr
      cases h
      exact ⟨p, hp, hr⟩
    · cases h
  · cases h

/-- **C141, Gurobi and CPLEX.** Started with a file or a solver object, with or without cuts that are bounded
from below only (all VPCs), they search exactly the problem given, restricted by exactly the cuts given. -/
theorem start_file_solvers {env : EntryEnv} {e : BBSolver} (he : e ≠ .cbc) {d d' : Disk Inst} {i : Input}
    {cuts : Option (List OsiRow)} {j : Job} {I : Inst} (hI : i.Means d I) (hz : env.zlib = true)
    (hc : ∀ c ∈ cuts.getD [], c.ub = none ∧ c.lb ≠ none) (h : startBB env e d i cuts = .ok d' j) :
    j.Does I cuts ∧ j.engine = e := by
  have key : ∀ (f : List Char), d.files f = some (.prob I) → runFile (fileJob e env.logs cuts) d f = .ok d' j →
      j.Does I cuts ∧ j.engine = e := by
    intro f hf h
    obtain ⟨p, hp, hr⟩ := runFile_ok h
    rw [hf] at hp
    cases hp
    exact fileJob_does e env.logs _ cuts hc j hr
  have key2 : runCopy env.limit env.cands env.zlib (fileJob e env.logs cuts) d I = .ok d' j →
      j.Does I cuts ∧ j.engine = e := by
    intro h
    rw [hz] at h
    exact fileJob_does e env.logs _ cuts hc j (tmp_run h).1
  cases e <;> cases i <;> simp only [Input.Means] at hI <;> simp only [startBB] at h
  · exact key _ hI h
  · subst hI; exact key2 h
  · exact key _ hI h
  · subst hI; exact key2 h
  · exact absurd rfl he
  · exact absurd rfl he

/-- **C141, Cbc with a solver object.** It searches the problem given, restricted by the cuts given if all are
accepted, and no file changes. -/
theorem start_cbc_solver (env : EntryEnv) (d : Disk Inst) (I : Inst) (cuts : Option (List OsiRow))
    (ha : ∀ c ∈ cuts.getD [], env.accepts c = true) :
    ∃ j, startBB env .cbc d (.solver I) cuts = .ok d j ∧ j.Does I cuts ∧ j.engine = .cbc := by
  refine ⟨_, rfl, cbcJob_does _ I cuts ha, ?_⟩
  cases cuts <;> rfl

/-- Cuts that are not accepted are missing, and nothing else: no solution that satisfies the cuts is lost. -/
theorem start_cbc_solver_outer (env : EntryEnv) (d : Disk Inst) (I : Inst) (l : List OsiRow) :
    ∃ j, startBB env .cbc d (.solver I) (some l) = .ok d j ∧
      ∀ x, j.Sol x ↔ I.Sol x ∧ ∀ c ∈ l, env.accepts c = true → c.Sat x :=
  ⟨_, rfl, fun x => by simp [Job.Sol, cbcJob, applyCuts_sol]⟩

/-- **C141, Cbc with a file name, violated.** The name given has no influence at all. -/
theorem start_cbc_file_ignored (env : EntryEnv) (d : Disk Inst) (f g : List Char) (cuts : Option (List OsiRow)) :
    startBB env .cbc d (.file f) cuts = startBB env .cbc d (.file g) cuts := rfl

/-- **C141, Cbc with a file name (partial).** If the name given is the parameter `FILENAME`, the points searched
are those asked for, and the objective is that of the file turned to minimization. Missing: any other name. -/
theorem start_cbc_file_partial (env : EntryEnv) (d : Disk Inst) (I : Inst) (hw : I.WF)
    (hI : d.files env.filename = some (.prob I)) (cuts : Option (List OsiRow))
    (ha : ∀ c ∈ cuts.getD [], env.accepts c = true) :
    ∃ j, startBB env .cbc d (.file env.filename) cuts = .ok d j ∧ j.engine = .cbc ∧
      (∀ x, j.Sol x ↔ Asked I cuts x) ∧ (∀ x, j.inst.value x = I.sense * I.value x) ∧ j.inst.sense = 1 := by
  have h : startBB env .cbc d (.file env.filename) cuts = .ok d (cbcJob env.accepts I.minimise cuts) := by
    simp [startBB, cbcFile, hI]
  have hd := cbcJob_does env.accepts I.minimise cuts ha
  refine ⟨_, h, by cases cuts <;> rfl, fun x => ?_, fun x => ?_, ?_⟩
  · rw [hd.points x]
    unfold Asked Inst.Sol
    rw [(minimise_relax I).1, (minimise_relax I).2]
  · rw [hd.value x, minimise_value hw]
  · rw [hd.sense, minimise_sense hw]

/-- A call that cannot read its problem ends the process, whatever the solver; with Cbc this is the file
`FILENAME`. -/
theorem start_unreadable (env : EntryEnv) (e : BBSolver) (d : Disk Inst) (f : List Char)
    (cuts : Option (List OsiRow))
    (h : ∀ p, d.files (if e = .cbc then env.filename else f) ≠ some (.prob p)) :
    startBB env e d (.file f) cuts = .exit d := by
  have key : ∀ s : SolverRun Inst Job, (∀ p, d.files f ≠ some (.prob p)) → runFile s d f = .exit d := by
    intro s h
    unfold runFile
    split
    · rename_i p hp; exact absurd hp (h p)
    · rfl
  cases e
  · simp only [startBB]; exact key _ (by simpa using h)
  · simp only [startBB]; exact key _ (by simpa using h)
  · simp only [if_true] at h
    unfold startBB cbcFile
    dsimp only
    split
    · rename_i p hp; exact absurd hp (h p)
    · rfl

/-! ## Examples and violations -/

/-- One integer variable between 0 and `u`, minimized. -/
def entryInst (u : ℚ) : Inst := ⟨⟨[some 0], [some u], []⟩, [1], 0, 1, fun _ => true⟩

/-- The file `a.mps` holds the problem with upper bound 1, `b.mps` that with upper bound 5. -/
def entryDisk : Disk Inst where
  files n := if n = "a.mps".toList then some (.prob (entryInst 1))
    else if n = "b.mps".toList then some (.prob (entryInst 5)) else none
  fds := 3

/-- The program was started with the file `a.mps`. -/
def entryEnv : EntryEnv := ⟨fun _ => true, "a.mps".toList, 10, ["abcdef".toList], true, fun _ => []⟩

/-- The cut `x0 ≥ 1`. -/
def entryCut : OsiRow := ⟨[(0, 1)], some 1, none⟩

/-- **C141, violated.** Asked for the problem in `b.mps`, Cbc searches the one in `a.mps`, Gurobi that in
`b.mps`. -/
theorem cbc_wrong_problem : ∃ j k d', startBB entryEnv .cbc entryDisk (.file "b.mps".toList) none = .ok entryDisk j ∧
    startBB entryEnv .gurobi entryDisk (.file "b.mps".toList) none = .ok d' k ∧
    entryDisk.files "b.mps".toList = some (.prob (entryInst 5)) ∧
    Asked (entryInst 5) none (fun _ => 5) ∧ ¬ j.Sol (fun _ => 5) ∧ k.Sol (fun _ => 5) := by
  refine ⟨_, _, _, rfl, rfl, rfl, ?_, ?_, ?_⟩
  · simp [Asked, Inst.Sol, MipFeas, entryInst, Relax.Feas, geLo, leHi]
    refine ⟨⟨?_, ?_⟩, 5, by norm_num⟩ <;> intro i b h <;> rcases i with _ | i <;> simp at h <;> subst h <;> norm_num
  · intro h
    have := h.1.1.2.1 0 (some 1) (by decide +kernel)
    norm_num [leHi] at this
  · simp [Job.Sol, Inst.Sol, MipFeas, entryInst, Relax.Feas, geLo, leHi]
    refine ⟨⟨?_, ?_⟩, 5, by norm_num⟩ <;> intro i b h <;> rcases i with _ | i <;> simp at h <;> subst h <;> norm_num

/-- **C141, violated for cuts bounded from above.** Gurobi is given the cut the wrong way round
(`gmic_other_side`): the solution 0 satisfies the cut `x0 ≤ 1` and is lost. -/
theorem gurobi_le_cut_wrong : ∃ j d', startBB entryEnv .gurobi entryDisk (.file "b.mps".toList)
      (some [⟨[(0, 1)], none, some 1⟩]) = .ok d' j ∧
    Asked (entryInst 5) (some [⟨[(0, 1)], none, some 1⟩]) (fun _ => 0) ∧ ¬ j.Sol (fun _ => 0) := by
  refine ⟨_, _, rfl, ?_, ?_⟩
  · simp [Asked, Inst.Sol, MipFeas, entryInst, Relax.Feas, geLo, leHi, OsiRow.Sat, sdot]
    refine ⟨⟨?_, ?_⟩, 0, by norm_num⟩ <;> intro i b h <;> rcases i with _ | i <;> simp at h <;> subst h <;> norm_num
  · rintro ⟨-, h⟩
    have := h ⟨[(0, 1)], 1⟩ (by simp [OsiRow.asGe, OsiRow.rhs])
    norm_num [RowCut.Sat, sdot] at this

example : ∃ j d', startBB entryEnv .gurobi entryDisk (.file "b.mps".toList) (some [entryCut]) = .ok d' j ∧
    (Input.file "b.mps".toList).Means entryDisk (entryInst 5) ∧ entryEnv.zlib = true ∧
    ∀ c ∈ (some [entryCut]).getD [], c.ub = none ∧ c.lb ≠ none :=
  ⟨_, _, rfl, rfl, rfl, by simp [entryCut]⟩

example : ∃ j d', startBB entryEnv .cplex entryDisk (.solver (entryInst 5)) (some [entryCut]) = .ok d' j ∧
    (Input.solver (entryInst 5)).Means entryDisk (entryInst 5) ∧ j.user = [entryCut.asGe] :=
  ⟨_, _, rfl, rfl, rfl⟩

example : (∀ c ∈ (some [entryCut]).getD [], entryEnv.accepts c = true) ∧ (entryInst 1).WF ∧
    entryDisk.files entryEnv.filename = some (.prob (entryInst 1)) :=
  ⟨fun _ _ => rfl, ⟨.inl rfl, rfl⟩, rfl⟩

example : ∀ p, entryDisk.files "c.mps".toList ≠ some (.prob p) := by
  intro p h
  have : entryDisk.files "c.mps".toList = none := rfl
  rw [this] at h; cases h

end VPC
