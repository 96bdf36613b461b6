import Verif.Model.Prep
import Verif.Props.Clean
import Verif.Props.BBCover
import Mathlib.Tactic.Ring

/-!
# C98: the preprocessing mode saves an equivalent instance; C99: what it reports about it
-/
namespace VPC

/-! ## Specification -/

/-- Objective value of a point, as the solver reports it (`OsiObjOffset` is subtracted). -/
def Inst.value (I : Inst) (x : Vec) : ℚ := (I.cost.zipIdx.map fun e => e.1 * x e.2).sum - I.offset

/-- The integer-feasible points of an instance. -/
def Inst.Sol (I : Inst) (x : Vec) : Prop := MipFeas I.relax I.isInt x

/-- The instance is a minimization or a maximization problem, with as many lower as upper bounds. -/
structure Inst.WF (I : Inst) : Prop where
  sense : I.sense = 1 ∨ I.sense = -1
  len : I.relax.hi.length = I.relax.lo.length

/-- The better of two values in the sense of the instance. -/
def Inst.Better (I : Inst) (v u : ℚ) : Prop := I.sense * v ≤ I.sense * u

/-- The solvers answer truthfully in the `k`-th pass: branches called infeasible are, auxiliary LPs are
solved to optimality, and the LP solution that is branched on is within the bounds of `P`. -/
structure CleanEnv.Truthful (env : CleanEnv) (P : Relax) : Prop where
  sb : env.SBTrue
  lp : env.LPTrue
  away : 0 < env.away
  x0 : ∀ i, (∀ l, P.loAt i = some l → l ≤ env.x0 i) ∧ ∀ u, P.hiAt i = some u → env.x0 i ≤ u

/-! ## Bounds stay within those of the problem the LP solution belongs to -/

theorem Tighter.refl (P : Relax) : Tighter P P :=
  ⟨rfl, rfl, rfl, fun _ l h => ⟨l, h, le_rfl⟩, fun _ l h => ⟨l, h, le_rfl⟩⟩

theorem Tighter.setLo {B P : Relax} (h : Tighter B P) {col : ℕ} {v : ℚ} (hc : col < P.lo.length)
    (hv : ∀ l, P.loAt col = some l → l ≤ v) : Tighter (B.setLo col v) P := by
  have hc' : col < B.lo.length := by rw [h.lenLo]; exact hc
  refine ⟨h.rows, by simp [Relax.setLo, h.lenLo], h.lenHi, fun i l hl => ?_, h.hi⟩
  rw [setLo_loAt hc']
  split
  · rename_i hi; subst hi; exact ⟨v, rfl, hv l hl⟩
  · exact h.lo i l hl

theorem Tighter.setHi {B P : Relax} (h : Tighter B P) {col : ℕ} {v : ℚ} (hc : col < P.hi.length)
    (hv : ∀ l, P.hiAt col = some l → v ≤ l) : Tighter (B.setHi col v) P := by
  have hc' : col < B.hi.length := by rw [h.lenHi]; exact hc
  refine ⟨h.rows, h.lenLo, by simp [Relax.setHi, h.lenHi], h.lo, fun i l hl => ?_⟩
  rw [setHi_hiAt hc']
  split
  · rename_i hi; subst hi; exact ⟨v, rfl, hv l hl⟩
  · exact h.hi i l hl

theorem cleanCol_within {P0 P : Relax} {env : CleanEnv} {col : ℕ} {s s' : CleanSt} (hP : Tighter P P0)
    (hx0 : ∀ i, (∀ l, P0.loAt i = some l → l ≤ env.x0 i) ∧ ∀ u, P0.hiAt i = some u → env.x0 i ≤ u)
    (hw : P0.hi.length = P0.lo.length) (hc : col < P0.lo.length)
    (h : cleanCol P env col s = .ok s') (hs : Tighter s.bs P0) : Tighter s'.bs P0 := by
  have hc' : col < P0.hi.length := by rw [hw]; exact hc
  have hd : (0 : ℚ) < defEps := by norm_num [defEps]
  have e1 : ∀ s, Tighter s.bs P0 → Tighter (cleanTightLB P env col s).bs P0 := by
    intro s hs
    unfold cleanTightLB
    split
    · exact hs
    · split
      · rename_i y _ hg
        refine hs.setLo hc fun l hl => ?_
        obtain ⟨l', h1, h2⟩ := hP.lo col l hl
        rw [h1] at hg
        simp only [gtLo, greaterThanVal_iff] at hg
        linarith
      · exact hs
  have e2 : ∀ s, Tighter s.bs P0 → Tighter (cleanTightUB P env col s).bs P0 := by
    intro s hs
    unfold cleanTightUB
    split
    · exact hs
    · split
      · rename_i y _ hg
        refine hs.setHi hc' fun l hl => ?_
        obtain ⟨l', h1, h2⟩ := hP.hi col l hl
        rw [h1] at hg
        simp only [ltHi, lessThanVal_iff] at hg
        linarith
      · exact hs
  have e3 : ∀ s, Tighter s.bs P0 → Tighter (cleanLB P col s).bs P0 := by
    intro s hs
    unfold cleanLB
    split
    · exact hs
    · rename_i l' hl'
      split
      · refine hs.setLo hc fun l hl => ?_
        obtain ⟨l'', h1, h2⟩ := hP.lo col l hl
        rw [hl', Option.some.injEq] at h1
        subst h1
        exact h2.trans (Int.le_ceil _)
      · exact hs
  have e4 : ∀ s, Tighter s.bs P0 → Tighter (cleanUB P col s).bs P0 := by
    intro s hs
    unfold cleanUB
    split
    · exact hs
    · rename_i l' hl'
      split
      · refine hs.setHi hc' fun l hl => ?_
        obtain ⟨l'', h1, h2⟩ := hP.hi col l hl
        rw [hl', Option.some.injEq] at h1
        subst h1
        exact (Int.floor_le _).trans h2
      · exact hs
  have e5 : ∀ s s', cleanSB P env col s = .ok s' → Tighter s.bs P0 → Tighter s'.bs P0 := by
    intro s s' h hs
    unfold cleanSB at h
    split at h
    · dsimp only at h
      split at h
      · cases h
      split at h
      · simp only [Res.ok.injEq] at h; subst h
        exact hs.setLo hc fun l hl => ((hx0 col).1 l hl).trans (Int.le_ceil _)
      · split at h
        · simp only [Res.ok.injEq] at h; subst h
          exact hs.setHi hc' fun l hl => (Int.floor_le _).trans ((hx0 col).2 l hl)
        · simp only [Res.ok.injEq] at h; subst h; exact hs
    · simp only [Res.ok.injEq] at h; subst h; exact hs
  unfold cleanCol at h
  obtain ⟨s3, h3, h4⟩ := Res.bind_ok h
  simp only [Res.ok.injEq] at h4; subst h4
  refine e2 _ (e1 _ ?_)
  split at h3
  · obtain ⟨s2, h5, h6⟩ := Res.bind_ok h3
    simp only [Res.ok.injEq] at h6; subst h6
    exact e4 _ (e3 _ (e5 _ _ h5 hs))
  · simp only [Res.ok.injEq] at h3; subst h3; exact hs

theorem cleanCols_within {P0 P : Relax} {env : CleanEnv} {cols : List ℕ} {s s' : CleanSt} (hP : Tighter P P0)
    (hx0 : ∀ i, (∀ l, P0.loAt i = some l → l ≤ env.x0 i) ∧ ∀ u, P0.hiAt i = some u → env.x0 i ≤ u)
    (hw : P0.hi.length = P0.lo.length) (hc : ∀ c ∈ cols, c < P0.lo.length)
    (h : cleanCols P env cols s = .ok s') (hs : Tighter s.bs P0) : Tighter s'.bs P0 := by
  induction cols generalizing s with
  | nil => simp only [cleanCols, Res.ok.injEq] at h; subst h; exact hs
  | cons c cs ih =>
    obtain ⟨s1, h1, h2⟩ := Res.bind_ok h
    exact ih (fun c hc' => hc c (by simp [hc'])) h2
      (cleanCol_within hP hx0 hw (hc c (by simp)) h1 hs)

theorem cleanProblem_within {P0 P : Relax} {env : CleanEnv} {s : CleanSt} (hP : Tighter P P0)
    (hx0 : ∀ i, (∀ l, P0.loAt i = some l → l ≤ env.x0 i) ∧ ∀ u, P0.hiAt i = some u → env.x0 i ≤ u)
    (hw : P0.hi.length = P0.lo.length) (h : cleanProblem P env = .ok s) : Tighter s.bs P0 := by
  obtain ⟨s0, h0, rfl⟩ := cleanProblem_cols h
  have := cleanCols_within hP hx0 hw (by simp [hP.lenLo]) h0 hP
  exact ⟨hP.rows, this.lenLo, this.lenHi, this.lo, this.hi⟩

/-! ## The loop -/

/-- **C98.** However many passes are made, and although the LP is not solved again between them: the
integer-feasible points are those of the problem the loop began with. -/
theorem cleanLoop_sol {I : Inst} {w : ℕ → CleanEnv} (hs : I.sense = 1) {P0 : Relax}
    (hw : P0.hi.length = P0.lo.length) (ht : ∀ k, (w k).Truthful P0) {f k : ℕ} {P : Relax} {nb sb : ℕ}
    {r : Relax × ℕ × ℕ} (h : cleanLoop I w f k P nb sb = .ok r) (hP : Tighter P P0)
    (hsol : ∀ x, MipFeas P0 I.isInt x → MipFeas P I.isInt x) :
    Tighter r.1 P0 ∧ ∀ x, MipFeas r.1 I.isInt x ↔ MipFeas P0 I.isInt x := by
  induction f generalizing k P nb sb with
  | zero =>
    simp only [cleanLoop, Res.ok.injEq] at h; subst h
    exact ⟨hP, fun x => ⟨fun hx => ⟨hP.feas hx.1, hx.2⟩, hsol x⟩⟩
  | succ f ih =>
    simp only [cleanLoop] at h
    obtain ⟨s, h1, h⟩ := Res.bind_ok h
    have hin := cleanProblem_within hP (env := { w k with sense := I.sense, isInt := I.isInt })
      (ht k).x0 hw h1
    have hkeep : ∀ x, MipFeas P0 I.isInt x → MipFeas s.bs I.isInt x := fun x hx =>
      clean_preserves_partial h1 (ht k).sb (ht k).lp hs (hsol x hx)
    split at h
    · simp only [Res.ok.injEq] at h; subst h
      exact ⟨hin, fun x => ⟨fun hx => ⟨hin.feas hx.1, hx.2⟩, hkeep x⟩⟩
    · exact ih h hin hkeep

/-- The counters of the loop never fall below those of the caller. -/
theorem cleanLoop_counters {I : Inst} {w : ℕ → CleanEnv} {f k : ℕ} {P : Relax} {nb sb : ℕ}
    {r : Relax × ℕ × ℕ} (h : cleanLoop I w f k P nb sb = .ok r) :
    ∃ a b, r.2 = (nb + a, sb + b) := by
  induction f generalizing k P nb sb with
  | zero => simp only [cleanLoop, Res.ok.injEq] at h; subst h; exact ⟨0, 0, rfl⟩
  | succ f ih =>
    simp only [cleanLoop] at h
    obtain ⟨s, h1, h⟩ := Res.bind_ok h
    split at h
    · simp only [Res.ok.injEq] at h; subst h; exact ⟨_, _, rfl⟩
    · obtain ⟨a, b, e⟩ := ih h
      exact ⟨s.numBounds + a, s.numSB + b, by rw [e, Nat.add_assoc, Nat.add_assoc]⟩

/-- **C98.** Only the answers given in the first `f` passes matter (five for the program), and none after the
first pass that changes nothing. -/
theorem cleanLoop_passes {I : Inst} {w w' : ℕ → CleanEnv} {f k : ℕ} {P : Relax} {nb sb : ℕ}
    (h : ∀ j, k ≤ j → j < k + f → w j = w' j) :
    cleanLoop I w f k P nb sb = cleanLoop I w' f k P nb sb := by
  induction f generalizing k P nb sb with
  | zero => rfl
  | succ f ih =>
    simp only [cleanLoop]
    rw [h k le_rfl (by omega)]
    congr 1
    funext s
    rw [ih fun j h1 h2 => h j (by omega) (by omega)]

theorem cleanLoop_stops {I : Inst} {w w' : ℕ → CleanEnv} {f k : ℕ} {P : Relax} {nb sb : ℕ} {s : CleanSt}
    (h0 : w k = w' k) (h : cleanProblem P { w k with sense := I.sense, isInt := I.isInt } = .ok s)
    (hc : s.clean = true) :
    cleanLoop I w (f + 1) k P nb sb = cleanLoop I w' (f + 1) k P nb sb := by
  simp only [cleanLoop]
  rw [← h0, h]
  simp [Res.bind, hc]

/-! ## The change of sense -/

theorem minimise_sense {I : Inst} (h : I.WF) : I.minimise.sense = 1 := by
  unfold Inst.minimise
  rcases h.sense with h | h
  · rw [if_neg (by rw [h]; norm_num), h]
  · rw [if_pos (by rw [h]; norm_num)]

theorem minimise_relax (I : Inst) : I.minimise.relax = I.relax ∧ I.minimise.isInt = I.isInt := by
  unfold Inst.minimise; split <;> exact ⟨rfl, rfl⟩

theorem neg_sum (l : List (ℚ × ℕ)) (x : Vec) :
    ((l.map fun e => (-1 * e.1, e.2)).map fun e => e.1 * x e.2).sum = -(l.map fun e => e.1 * x e.2).sum := by
  induction l with
  | nil => simp
  | cons e l ih => simp only [List.map_cons, List.sum_cons, ih]; ring

/-- **C98.** After the change of sense every point has the value it had, times the sense: what was better is
smaller. -/
theorem minimise_value {I : Inst} (h : I.WF) (x : Vec) : I.minimise.value x = I.sense * I.value x := by
  unfold Inst.minimise
  rcases h.sense with hs | hs
  · rw [if_neg (by rw [hs]; norm_num), hs, one_mul]
  · rw [if_pos (by rw [hs]; norm_num), hs]
    unfold Inst.value
    dsimp only
    have : (I.cost.map (-1 * ·)).zipIdx = I.cost.zipIdx.map fun e => (-1 * e.1, e.2) := by
      rw [List.zipIdx_map]; rfl
    rw [this, neg_sum]; ring

/-! ## The instance that is saved -/

theorem customClean_inst {mode : ℤ} {w : PrepWorld} {I : Inst} {nb : ℕ} {lp : ℚ} {c : Inst × ℕ × ℕ × ℚ}
    (h : customClean mode w I nb lp = .ok c) :
    (mode ≤ 1 ∧ c = (I, nb, 0, lp)) ∨
    (1 < mode ∧ ∃ r, cleanLoop I w.clean 5 0 I.relax nb 0 = .ok r ∧ c.1 = { I with relax := r.1 } ∧
      c.2.1 = r.2.1 ∧ c.2.2.1 = r.2.2 ∧
      (((0 < r.2.1 ∨ 0 < r.2.2) ∧ w.lp c.1 = some c.2.2.2) ∨ (r.2.1 = 0 ∧ r.2.2 = 0 ∧ c.2.2.2 = lp))) := by
  unfold customClean at h
  split at h
  · rename_i hm
    obtain ⟨r, hr, h⟩ := Res.bind_ok h
    refine Or.inr ⟨hm, r, hr, ?_⟩
    split at h
    · rename_i hn
      split at h
      · cases h
      · rename_i v hv
        simp only [Res.ok.injEq] at h; subst h
        exact ⟨rfl, rfl, rfl, Or.inl ⟨hn, hv⟩⟩
    · rename_i hn
      simp only [Res.ok.injEq] at h; subst h
      exact ⟨rfl, rfl, rfl, Or.inr ⟨by omega, by omega, rfl⟩⟩
  · simp only [Res.ok.injEq] at h; subst h
    exact Or.inl ⟨by omega, rfl⟩

theorem performCleaning_steps {strategy : BitVec 32} {mode : ℤ} {ipObj : ℚ} {w : PrepWorld} {orig : Inst}
    {out : PrepOut} (h : performCleaning strategy mode ipObj w orig = .ok out) :
    ∃ I0 v0 c, readBack strategy mode w = .ok I0 ∧ w.bb orig = .ok out.origBB ∧
      w.lp I0.minimise = some v0 ∧
      customClean mode w I0.minimise (presolveDiff orig I0) v0 = .ok c ∧
      cleanedTests w orig c.1 c.2.1 c.2.2.1 out.origBB = .ok out.cleanedBB ∧
      out.cleaned = c.1 ∧ out.cleanedLp = (if c.1.nnz > 0 then c.2.2.2 else ipObj) ∧
      out.boundsChanged = c.2.1 ∧ out.sbFixed = c.2.2.1 := by
  unfold performCleaning at h
  obtain ⟨ob, hob, h⟩ := Res.bind_ok h
  obtain ⟨I0, hI, h⟩ := Res.bind_ok h
  split at h
  · cases h
  rename_i v0 hv
  obtain ⟨c, hc, h⟩ := Res.bind_ok h
  obtain ⟨cb, hcb, h⟩ := Res.bind_ok h
  simp only [Res.ok.injEq] at h; subst h
  exact ⟨I0, v0, c, hI, hob, hv, hc, hcb, rfl, rfl, rfl, rfl⟩

/-- **C98.** The instance that is saved has exactly the integer-feasible points of the instance the presolver
produced, it is a minimization problem, and of two points the better one (in the sense of the presolved
instance) has the smaller value; so the optimal points are the same. This holds in both modes, for all
truthful answers of the solvers. -/
theorem prep_equivalent {strategy : BitVec 32} {mode : ℤ} {ipObj : ℚ} {w : PrepWorld} {orig I0 : Inst}
    {out : PrepOut} (h : performCleaning strategy mode ipObj w orig = .ok out)
    (h0 : readBack strategy mode w = .ok I0) (hI : I0.WF) (ht : ∀ k, (w.clean k).Truthful I0.relax) :
    (∀ x, out.cleaned.Sol x ↔ I0.Sol x) ∧ out.cleaned.sense = 1 ∧
    (∀ x, out.cleaned.value x = I0.sense * I0.value x) ∧
    (∀ x y, out.cleaned.value x ≤ out.cleaned.value y ↔ I0.Better (I0.value x) (I0.value y)) := by
  obtain ⟨I0', v0, c, hI0, -, -, hc, -, hcl, -⟩ := performCleaning_steps h
  rw [h0] at hI0
  simp only [Res.ok.injEq] at hI0; subst hI0
  have hsame : c.1.sense = 1 ∧ c.1.cost = I0.minimise.cost ∧ c.1.offset = I0.minimise.offset ∧
      ∀ x, c.1.Sol x ↔ I0.Sol x := by
    rcases customClean_inst hc with ⟨-, rfl⟩ | ⟨-, r, hr, hr1, -⟩
    · exact ⟨minimise_sense hI, rfl, rfl, fun x => by
        unfold Inst.Sol; rw [(minimise_relax I0).1, (minimise_relax I0).2]⟩
    · rw [(minimise_relax I0).1] at hr
      have := cleanLoop_sol (minimise_sense hI) hI.len ht hr (Tighter.refl _) (fun _ hx => hx)
      rw [hr1]
      refine ⟨minimise_sense hI, rfl, rfl, fun x => ?_⟩
      have h2 := this.2 x
      rw [(minimise_relax I0).2] at h2
      unfold Inst.Sol
      dsimp only
      rw [(minimise_relax I0).2]
      exact h2
  have hval : ∀ x, out.cleaned.value x = I0.sense * I0.value x := by
    intro x
    rw [hcl, ← minimise_value hI]
    unfold Inst.value
    rw [hsame.2.1, hsame.2.2.1]
  refine ⟨?_, ?_, hval, ?_⟩
  · rw [hcl]; exact hsame.2.2.2
  · rw [hcl]; exact hsame.1
  · intro x y; rw [hval, hval]; exact Iff.rfl

/-- The LP solver is truthful: the value is that of a best point of the relaxation. -/
def PrepWorld.LPTrue (w : PrepWorld) : Prop :=
  ∀ I v, w.lp I = some v → I.sense = 1 → ∀ x, I.relax.Feas x → v ≤ I.value x

/-- **C98.** The bound that is reported for the cleaned instance is valid for every integer-feasible point of
the presolved instance (if the cleaned instance has a nonempty matrix). -/
theorem prep_bound_valid {strategy : BitVec 32} {mode : ℤ} {ipObj : ℚ} {w : PrepWorld} {orig I0 : Inst}
    {out : PrepOut} (h : performCleaning strategy mode ipObj w orig = .ok out)
    (h0 : readBack strategy mode w = .ok I0) (hI : I0.WF) (ht : ∀ k, (w.clean k).Truthful I0.relax)
    (hl : w.LPTrue) (hz : out.cleaned.nnz > 0) {x : Vec} (hx : I0.Sol x) :
    out.cleanedLp ≤ I0.sense * I0.value x := by
  obtain ⟨hsol, hsense, hval, -⟩ := prep_equivalent h h0 hI ht
  obtain ⟨I0', v0, c, hI0, -, hv0, hc, -, hcl, hlp, -⟩ := performCleaning_steps h
  rw [h0] at hI0
  simp only [Res.ok.injEq] at hI0; subst hI0
  rw [← hcl, if_pos hz] at hlp
  rw [hlp]
  have hbase : ∀ v, w.lp I0.minimise = some v → v ≤ I0.sense * I0.value x := by
    intro v hv
    rw [← minimise_value hI]
    refine hl _ _ hv (minimise_sense hI) x ?_
    rw [(minimise_relax I0).1]; exact hx.1
  rcases customClean_inst hc with ⟨-, e⟩ | ⟨-, r, hr, hr1, -, -, h4⟩
  · rw [e]; exact hbase v0 hv0
  · rcases h4 with ⟨-, h4⟩ | ⟨-, -, h4⟩
    · rw [← hval x]
      rw [← hcl] at h4
      exact hl _ _ h4 hsense x ((hsol x).2 hx).1
    · rw [h4]; exact hbase v0 hv0

/-! ## C99: what is reported -/

/-- **C99.** Exactly when the results of the original instance are reported for the cleaned one: the matrix is
nonempty and no change was noticed. If a change was noticed they are those of a run with the cleaned instance,
and for an empty matrix nothing is run. -/
theorem prep_reuse_iff {strategy : BitVec 32} {mode : ℤ} {ipObj : ℚ} {w : PrepWorld} {orig : Inst}
    {out : PrepOut} (h : performCleaning strategy mode ipObj w orig = .ok out) :
    w.bb orig = .ok out.origBB ∧
    (out.cleaned.nnz = 0 → out.cleanedBB = {} ∧ out.cleanedLp = ipObj) ∧
    (0 < out.cleaned.nnz → (out.sbFixed ≠ 0 ∨ out.boundsChanged ≠ 0 ∨
        out.cleaned.relax.lo.length ≠ orig.relax.lo.length ∨
        out.cleaned.relax.rows.length ≠ orig.relax.rows.length ∨ out.cleaned.nnz ≠ orig.nnz) →
      w.bb out.cleaned = .ok out.cleanedBB) ∧
    (0 < out.cleaned.nnz → out.sbFixed = 0 → out.boundsChanged = 0 →
        out.cleaned.relax.lo.length = orig.relax.lo.length →
        out.cleaned.relax.rows.length = orig.relax.rows.length → out.cleaned.nnz = orig.nnz →
      out.cleanedBB = out.origBB) := by
  obtain ⟨I0, v0, c, -, hob, -, -, hcb, hcl, hlp, hn, hs⟩ := performCleaning_steps h
  rw [← hcl, ← hn, ← hs] at hcb
  rw [← hcl] at hlp
  unfold cleanedTests at hcb
  refine ⟨hob, fun hz => ?_, fun hz hd => ?_, fun hz h1 h2 h3 h4 h5 => ?_⟩
  · rw [hz] at hcb hlp
    simp only [gt_iff_lt, lt_self_iff_false, decide_false, Bool.false_and, Bool.false_eq_true, if_false,
      if_true, Res.ok.injEq] at hcb hlp
    exact ⟨hcb.symm, hlp⟩
  · have hw : wasCleaned orig out.cleaned out.boundsChanged out.sbFixed = true := by
      simp only [wasCleaned, Bool.or_eq_true, decide_eq_true_eq]
      rcases hd with hd | hd | hd | hd | hd
      · left; left; left; left; omega
      · left; left; left; right; omega
      · left; left; right; exact hd
      · left; right; exact hd
      · right; exact hd
    rw [hw, if_pos (by simp [hz])] at hcb
    exact hcb
  · have hw : wasCleaned orig out.cleaned out.boundsChanged out.sbFixed = false := by
      simp [wasCleaned, h1, h2, h3, h4, h5]
    rw [hw] at hcb
    simp only [Bool.and_false, Bool.false_eq_true, if_false] at hcb
    rw [if_neg (by omega)] at hcb
    simp only [Res.ok.injEq] at hcb
    exact hcb.symm

/-- Two possibly infinite bounds agree up to the tolerance. -/
def CloseBound : Option ℚ → Option ℚ → Prop
  | none, none => True
  | some a, some b => |a - b| < defEps
  | _, _ => False

theorem sameBound_iff (a b : Option ℚ) : sameBound a b = true ↔ CloseBound a b := by
  cases a <;> cases b <;> simp [sameBound, CloseBound]

theorem countDiff_zero {α : Type} {same : α → α → Bool} {a b : List α} (hl : a.length = b.length) :
    countDiff same a b = 0 ↔ ∀ (i : ℕ) x y, a[i]? = some x → b[i]? = some y → same x y = true := by
  unfold countDiff
  rw [if_pos hl, List.countP_eq_zero]
  constructor
  · intro h i x y hx hy
    have hm : (x, y) ∈ a.zip b := by
      rw [List.mem_iff_getElem?]
      exact ⟨i, by rw [List.getElem?_zip_eq_some]; exact ⟨hx, hy⟩⟩
    have := h _ hm
    simpa using this
  · rintro h ⟨x, y⟩ hm
    rw [List.mem_iff_getElem?] at hm
    obtain ⟨i, hi⟩ := hm
    rw [List.getElem?_zip_eq_some] at hi
    simp [h i x y hi.1 hi.2]

/-- **C99 (partial).** What is certain when the results of the original are reported for the cleaned instance
without a run: sizes are the same, and right-hand sides and column bounds agree up to the tolerance. Missing:
objective, coefficients, directions of rows and integrality, see `prep_reuse_wrong`. -/
theorem prep_reuse_partial {strategy : BitVec 32} {mode : ℤ} {ipObj : ℚ} {w : PrepWorld} {orig I0 : Inst}
    {out : PrepOut} (h : performCleaning strategy mode ipObj w orig = .ok out)
    (h0 : readBack strategy mode w = .ok I0) (hI : I0.relax.hi.length = I0.relax.lo.length)
    (hO : orig.relax.hi.length = orig.relax.lo.length)
    (hb : out.boundsChanged = 0) (hlo : I0.relax.lo.length = orig.relax.lo.length)
    (hr : I0.relax.rows.length = orig.relax.rows.length) :
    (∀ (i : ℕ) (r s : MRow), orig.relax.rows[i]? = some r → I0.relax.rows[i]? = some s →
      |r.ub.getD (r.lb.getD 0) - s.ub.getD (s.lb.getD 0)| < defEps) ∧
    (∀ (i : ℕ) a b, orig.relax.lo[i]? = some a → I0.relax.lo[i]? = some b → CloseBound a b) ∧
    (∀ (i : ℕ) a b, orig.relax.hi[i]? = some a → I0.relax.hi[i]? = some b → CloseBound a b) := by
  obtain ⟨I0', v0, c, hI0, -, -, hc, -, -, -, hn, -⟩ := performCleaning_steps h
  rw [h0] at hI0
  simp only [Res.ok.injEq] at hI0; subst hI0
  have hd : presolveDiff orig I0 = 0 := by
    rcases customClean_inst hc with ⟨-, e⟩ | ⟨-, r, hr, -, hr2, -⟩
    · rw [e] at hn; dsimp only at hn; omega
    · obtain ⟨a, b, e⟩ := cleanLoop_counters hr
      rw [e] at hr2; dsimp only at hr2; omega
  unfold presolveDiff at hd
  refine ⟨fun i r s h1 h2 => ?_, fun i a b h1 h2 => ?_, fun i a b h1 h2 => ?_⟩
  · have h3 : countDiff (fun r s => isVal (MRow.rightHandSide r) (MRow.rightHandSide s)) orig.relax.rows
        I0.relax.rows = 0 := by omega
    exact isVal_iff.mp ((countDiff_zero hr.symm).mp h3 i r s h1 h2)
  · exact (sameBound_iff a b).mp ((countDiff_zero hlo.symm).mp (by omega) i a b h1 h2)
  · exact (sameBound_iff a b).mp ((countDiff_zero (by omega)).mp (by omega) i a b h1 h2)

theorem cleanLoop_nil (I : Inst) (w : ℕ → CleanEnv) (f k nb sb : ℕ) :
    cleanLoop I w f k ⟨[], [], []⟩ nb sb = .ok (⟨[], [], []⟩, nb, sb) := by
  cases f <;> rfl

/-- **C99.** If no presolver is asked for and the program's own cleaning is, then nothing of the instance is
cleaned: an empty instance is saved, the best known objective value is reported as its LP bound, and nothing is
run on it. -/
theorem prep_without_presolver {strategy : BitVec 32} {mode : ℤ} {ipObj : ℚ} {w : PrepWorld} {orig : Inst}
    {out : PrepOut} (hg : useBB strategy .gurobi = false) (hc : useBB strategy .cplex = false) (hm : 1 < mode)
    (h : performCleaning strategy mode ipObj w orig = .ok out) :
    out.cleaned.relax = ⟨[], [], []⟩ ∧ out.cleanedLp = ipObj ∧ out.cleanedBB = {} ∧ out.sbFixed = 0 := by
  obtain ⟨I0, v0, c, hI0, -, -, hcc, -, hcl, -, -, hs⟩ := performCleaning_steps h
  have e : I0 = Inst.empty := by
    unfold readBack at hI0
    simp only [hg, hc, Bool.false_and, Bool.false_eq_true, if_false, Bool.or_self] at hI0
    rw [if_neg (by omega)] at hI0
    simpa using hI0.symm
  have hrel : I0.minimise.relax = ⟨[], [], []⟩ := by rw [(minimise_relax I0).1, e]; rfl
  rcases customClean_inst hcc with ⟨h1, -⟩ | ⟨-, r, hr, hr1, -, hr3, -⟩
  · omega
  · rw [hrel, cleanLoop_nil] at hr
    simp only [Res.ok.injEq] at hr; subst hr
    have hz : out.cleaned.relax = ⟨[], [], []⟩ := by rw [hcl, hr1]
    have := (prep_reuse_iff h).2.1 (by simp [Inst.nnz, hz])
    exact ⟨hz, this.2, this.1, by rw [hs, hr3]⟩

/-- **C98.** If the run gets through, every presolver asked for is available, and the instance worked on is the one
the presolver wrote. -/
theorem prep_reads {strategy : BitVec 32} {mode : ℤ} {ipObj : ℚ} {w : PrepWorld} {orig : Inst} {out : PrepOut}
    (h : performCleaning strategy mode ipObj w orig = .ok out) :
    (useBB strategy .gurobi = true → w.hasGurobi = true) ∧ (useBB strategy .cplex = true → w.hasCplex = true) ∧
    (useBB strategy .gurobi = true ∨ useBB strategy .cplex = true →
      ∃ I, w.presolved = some I ∧ readBack strategy mode w = .ok I ∧ out.boundsChanged ≥ presolveDiff orig I) := by
  obtain ⟨I0, v0, c, hI0, -, -, hc, -, -, -, hn, -⟩ := performCleaning_steps h
  have hnb : out.boundsChanged ≥ presolveDiff orig I0 := by
    rcases customClean_inst hc with ⟨-, e⟩ | ⟨-, r, hr, -, hr2, -⟩
    · rw [e] at hn; dsimp only at hn; omega
    · obtain ⟨a, b, e⟩ := cleanLoop_counters hr
      rw [e] at hr2; dsimp only at hr2; omega
  have hI := hI0
  unfold readBack at hI0
  split at hI0
  · cases hI0
  rename_i h1
  split at hI0
  · cases hI0
  rename_i h2
  refine ⟨fun hu => by simpa [hu] using h1, fun hu => by simpa [hu] using h2, fun hu => ?_⟩
  have hu' : (useBB strategy .gurobi || useBB strategy .cplex) = true := by simpa using hu
  rw [if_pos hu'] at hI0
  split at hI0
  · cases hI0
  · rename_i I hp
    simp only [Res.ok.injEq] at hI0
    subst hI0
    exact ⟨I, hp, hI, hnb⟩

/-! ## Concrete cases -/

/-- `2x ≥ 5`. -/
def prepExRow : MRow := ⟨[(0, 2)], some 5, none⟩

/-- `2x ≥ 5`, `0 ≤ x ≤ 4`. -/
def prepP : Relax := ⟨[some 0], [some 4], [prepExRow]⟩

/-- The interval in which `x` lies. -/
def prepBox (Q : Relax) : Option (ℚ × ℚ) :=
  if Q.rows = [prepExRow] ∧ Q.lo.length = 1 ∧ Q.hi.length = 1 then
    match Q.loAt 0, Q.hiAt 0 with
    | some l, some u => if max l (5 / 2) ≤ u then some (max l (5 / 2), u) else none
    | _, _ => none
  else none

theorem prepBox_spec {Q : Relax} {p : ℚ × ℚ} (h : prepBox Q = some p) :
    p.1 ≤ p.2 ∧ ∀ x, Q.Feas x ↔ p.1 ≤ x 0 ∧ x 0 ≤ p.2 := by
  unfold prepBox at h
  split at h
  · rename_i hq
    obtain ⟨hr, hl, hu⟩ := hq
    split at h
    · rename_i l u hlo hhi
      split at h
      · rename_i hlu
        simp only [Option.some.injEq] at h; subst h
        refine ⟨hlu, fun x => ⟨fun hx => ⟨max_le (Feas.loAt hx hlo) ?_, Feas.hiAt hx hhi⟩, fun hx => ⟨?_, ?_, ?_⟩⟩⟩
        · have := (hx.2.2 prepExRow (by simp [hr])).1 5 rfl
          simp [prepExRow, sdot] at this
          linarith
        · intro i b hb l' hl'
          have hi : i = 0 := by have := (List.getElem?_eq_some_iff.mp hb).1; omega
          subst hi
          rw [loAt_of_get hb] at hlo; subst hl'; cases hlo
          exact (le_max_left _ _).trans hx.1
        · intro i b hb l' hl'
          have hi : i = 0 := by have := (List.getElem?_eq_some_iff.mp hb).1; omega
          subst hi
          rw [hiAt_of_get hb] at hhi; subst hl'; cases hhi
          exact hx.2
        · intro r hr'
          rw [hr] at hr'
          simp only [List.mem_singleton] at hr'; subst hr'
          refine ⟨fun v hv => ?_, fun v hv => by cases hv⟩
          cases hv
          have := (le_max_right l (5 / 2)).trans hx.1
          simp [prepExRow, sdot]
          linarith
      · cases h
    · cases h
  · cases h

/-- Is the branch infeasible? -/
def prepSB (Q : Relax) : Bool :=
  decide (Q.rows = [prepExRow]) && match Q.hiAt 0 with
    | some u => decide (u < 5 / 2)
    | none => false

/-- The answers in every pass; `x0` is the LP solution found before the first. -/
def prepEnv : CleanEnv where
  sense := 1
  x0 := fun _ => 5 / 2
  away := 1 / 1000
  isInt := fun _ => true
  sb := prepSB
  opt := fun s k col Q => if col = 0 then
    (prepBox Q).map fun p => fun _ => if 0 ≤ s * k then p.1 else p.2 else none

/-- The value of the LP relaxation. -/
def prepLp (I : Inst) : Option ℚ :=
  match I.cost, prepBox I.relax with
  | [c], some p => some (c * (if 0 ≤ c then p.1 else p.2) - I.offset)
  | _, _ => none

/-- A truthful world, in which the presolver writes `J`. -/
def prepW (J : Inst) : PrepWorld where
  hasGurobi := true
  hasCplex := false
  presolved := some J
  leftover := none
  clean := fun _ => prepEnv
  lp := prepLp
  bb := fun I => .ok { first := { bound := (prepLp I).getD 0 } }

/-- Minimize `c x`. -/
def prepInst (c sense : ℚ) : Inst := ⟨prepP, [c], 0, sense, fun _ => true⟩

theorem prepEnv_true : prepEnv.Truthful prepP := by
  refine ⟨?_, ?_, by norm_num [prepEnv], ?_⟩
  · intro Q h x hx
    simp only [prepEnv, prepSB, Bool.and_eq_true, decide_eq_true_eq] at h
    obtain ⟨h1, h2⟩ := h
    split at h2
    · rename_i u hu
      simp only [decide_eq_true_eq] at h2
      have h3 := (hx.2.2 prepExRow (by simp [h1])).1 5 rfl
      simp [prepExRow, sdot] at h3
      have := Feas.hiAt hx hu
      linarith
    · cases h2
  · intro s k col Q y h
    simp only [prepEnv] at h
    split at h
    · rename_i hc
      subst hc
      simp only [Option.map_eq_some_iff] at h
      obtain ⟨p, hp, rfl⟩ := h
      obtain ⟨h1, h2⟩ := prepBox_spec hp
      constructor
      · rw [h2]; split
        · exact ⟨le_rfl, h1⟩
        · exact ⟨h1, le_rfl⟩
      · intro z hz
        obtain ⟨h3, h4⟩ := (h2 z).mp hz
        rw [← mul_assoc, ← mul_assoc]
        dsimp only
        split
        · rename_i h0; exact mul_le_mul_of_nonneg_left h3 h0
        · rename_i h0; exact mul_le_mul_of_nonpos_left h4 (not_le.mp h0).le
    · cases h
  · rintro (_ | i)
    · constructor
      · intro l hl; simp [prepP, Relax.loAt] at hl; rw [← hl]; norm_num [prepEnv]
      · intro l hl; simp [prepP, Relax.hiAt] at hl; rw [← hl]; norm_num [prepEnv]
    · constructor
      · intro l hl; simp [prepP, Relax.loAt] at hl
      · intro l hl; simp [prepP, Relax.hiAt] at hl

theorem prepW_true (J : Inst) : (prepW J).LPTrue := by
  intro I v h _ x hx
  simp only [prepW, prepLp] at h
  split at h
  · rename_i c p hc hp
    simp only [Option.some.injEq] at h; subst h
    obtain ⟨h3, h4⟩ := ((prepBox_spec hp).2 x).mp hx
    have hv : I.value x = c * x 0 - I.offset := by simp [Inst.value, hc, List.zipIdx]
    rw [hv]
    split
    · rename_i h0; have := mul_le_mul_of_nonneg_left h3 h0; linarith
    · rename_i h0; have := mul_le_mul_of_nonpos_left h4 (not_le.mp h0).le; linarith
  · cases h

/-- The presolver turns `min x` into `max -x`; the program's own cleaning then finds `x ≥ 3`. All hypotheses of
`prep_equivalent` and `prep_bound_valid` hold, the saved instance differs from the one read back, and the
bound is better than that of the relaxation (`5/2`). -/
theorem prep_example : ∃ out, performCleaning 8 2 3 (prepW (prepInst (-1) (-1))) (prepInst 1 1) = .ok out ∧
    out.cleaned.relax = ⟨[some 3], [some 4], [prepExRow]⟩ ∧ out.cleanedLp = 3 ∧ out.cleaned.nnz > 0 ∧
    out.boundsChanged = 1 ∧ out.sbFixed = 5 := by
  have h : (performCleaning 8 2 3 (prepW (prepInst (-1) (-1))) (prepInst 1 1)).bind
      (fun o => Res.ok (o.cleaned.relax, o.cleanedLp, o.boundsChanged, o.sbFixed)) =
      .ok (⟨[some 3], [some 4], [prepExRow]⟩, 3, 1, 5) := by decide +kernel
  obtain ⟨out, h1, h2⟩ := Res.bind_ok h
  simp only [Res.ok.injEq, Prod.mk.injEq] at h2
  obtain ⟨h3, h4, h5, h6⟩ := h2
  exact ⟨out, h1, h3, h4, by simp [Inst.nnz, h3, prepExRow], h5, h6⟩

example : readBack 8 2 (prepW (prepInst (-1) (-1))) = .ok (prepInst (-1) (-1)) ∧ (prepInst (-1) (-1)).WF ∧
    (∀ k, ((prepW (prepInst (-1) (-1))).clean k).Truthful (prepInst (-1) (-1)).relax) ∧
    (prepW (prepInst (-1) (-1))).LPTrue :=
  ⟨by rfl, ⟨Or.inr rfl, rfl⟩, fun _ => prepEnv_true, prepW_true _⟩

/-- **C99 fails**: the lower side of a row with two sides is not compared. -/
theorem prep_range_unnoticed : presolveDiff ⟨⟨[some 0], [some 4], [⟨[(0, 1)], some 1, some 3⟩]⟩, [1], 0, 1, fun _ => true⟩
    ⟨⟨[some 0], [some 4], [⟨[(0, 1)], some 2, some 3⟩]⟩, [1], 0, 1, fun _ => true⟩ = 0 := by
  decide +kernel

/-- Non-vacuity of `prep_reads`; without the solver the run ends. -/
example : (∃ out, performCleaning 8 2 3 (prepW (prepInst (-1) (-1))) (prepInst 1 1) = .ok out) ∧
    useBB 8 .gurobi = true ∧
    readBack 8 2 { prepW (prepInst (-1) (-1)) with hasGurobi := false } = .exit := by
  obtain ⟨out, h1, -⟩ := prep_example
  exact ⟨⟨out, h1⟩, by decide, rfl⟩

/-- **C99 fails**: one bound is changed by strong branching, five fixings are reported. The LP is not solved
again between the passes, so the same variable is branched on again with its old value, one branch is found
infeasible again, and the loop ends only because of the limit. -/
theorem prep_counts_fixing_five_times : ∃ (w : PrepWorld) (orig I0 : Inst) (out : PrepOut),
    readBack 8 2 w = .ok I0 ∧ I0.WF ∧ (∀ k, (w.clean k).Truthful I0.relax) ∧ w.LPTrue ∧
    performCleaning 8 2 3 w orig = .ok out ∧ out.sbFixed = 5 ∧
    changedLo I0.relax out.cleaned.relax + changedHi I0.relax out.cleaned.relax = 1 := by
  obtain ⟨out, h1, h2, -, -, -, h6⟩ := prep_example
  refine ⟨_, _, prepInst (-1) (-1), out, by rfl, ⟨Or.inr rfl, rfl⟩, fun _ => prepEnv_true, prepW_true _, h1, h6, ?_⟩
  rw [h2]; decide +kernel

/-- **C99 fails**: the presolver changes the objective, this is not noticed, and the results of the original
instance are reported for the cleaned one. (All answers are truthful.) -/
theorem prep_reuse_wrong : ∃ (w : PrepWorld) (orig : Inst) (out : PrepOut) (b : SummaryBB),
    w.LPTrue ∧ performCleaning 8 1 3 w orig = .ok out ∧ w.bb out.cleaned = .ok b ∧
    out.cleanedBB = out.origBB ∧ out.cleanedBB ≠ b := by
  refine ⟨prepW (prepInst 2 1), prepInst 1 1, ⟨prepInst 2 1, 5, { first := { bound := 5 / 2 } },
    { first := { bound := 5 / 2 } }, 0, 0⟩, { first := { bound := 5 } }, prepW_true _, ?_, ?_, rfl, by decide +kernel⟩
  · have h : (performCleaning 8 1 3 (prepW (prepInst 2 1)) (prepInst 1 1)).bind
        (fun o => Res.ok (o.cleanedLp, o.origBB, o.cleanedBB, o.boundsChanged, o.sbFixed)) =
        .ok (5, { first := { bound := 5 / 2 } }, { first := { bound := 5 / 2 } }, 0, 0) := by decide +kernel
    obtain ⟨o, h1, h2⟩ := Res.bind_ok h
    obtain ⟨I0, v0, c, hI0, -, -, hc, -, hcl, -⟩ := performCleaning_steps h1
    have e : I0 = prepInst 2 1 := by
      have : readBack 8 1 (prepW (prepInst 2 1)) = .ok (prepInst 2 1) := by rfl
      rw [this] at hI0; simpa using hI0.symm
    rw [h1]
    simp only [Res.ok.injEq, Prod.mk.injEq] at h2
    obtain ⟨h3, h4, h5, h6, h7⟩ := h2
    rcases customClean_inst hc with ⟨-, hc⟩ | ⟨hm, -⟩
    · have e2 : o.cleaned = prepInst 2 1 := by
        rw [hcl, hc, e]
        dsimp only
        unfold Inst.minimise
        rw [if_neg (by norm_num [prepInst])]
      cases o
      simp_all
    · norm_num at hm
  · have h : (prepW (prepInst 2 1)).bb (prepInst 2 1) = .ok { first := { bound := 5 } } := by decide +kernel
    exact h

/-- Without a presolver: the hypotheses of `prep_without_presolver` are met. -/
example : useBB 2 .gurobi = false ∧ useBB 2 .cplex = false ∧
    ∃ out, performCleaning 2 2 3 { prepW (prepInst 1 1) with lp := fun _ => some 0 } (prepInst 1 1) = .ok out := by
  refine ⟨by decide +kernel, by decide +kernel, ?_⟩
  have h : (performCleaning 2 2 3 { prepW (prepInst 1 1) with lp := fun _ => some 0 } (prepInst 1 1)).bind
      (fun o => Res.ok o.sbFixed) = .ok 0 := by decide +kernel
  obtain ⟨out, h1, -⟩ := Res.bind_ok h
  exact ⟨out, h1⟩

end VPC
