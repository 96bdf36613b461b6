import Verif.Model.Params
import Mathlib.Tactic.Linarith
import Mathlib.Tactic.NormNum
import Mathlib.Tactic.GCongr
import Mathlib.Tactic.Ring
import Mathlib.Data.Rat.Cast.Order

/-!
# Properties C17, C18, C51 (numeric parameters, setting by name, parsing integers)
-/
namespace VPC

/-! ## Specification -/

/-- The C++ `int` range. -/
def IsInt (v : Int) : Prop := intMin ≤ v ∧ v ≤ intMax

instance (v : Int) : Decidable (IsInt v) := by unfold IsInt; infer_instance

/-- What the documentation of an integer parameter allows: an element of the list if there is one,
otherwise a number between the bounds. -/
def IntP.Documented (p : IntP) (v : Int) : Prop :=
  (p.allowed ≠ [] ∧ v ∈ p.allowed) ∨ (p.allowed = [] ∧ p.mn ≤ v ∧ v ≤ p.mx)

/-- What the documentation of a real parameter allows, up to the comparison tolerance. -/
def DblP.DocumentedTol (p : DblP) (v : ℚ) : Prop := p.mn - defEps < v ∧ v < p.mx + defEps

theorem defEps_pos : (0 : ℚ) < defEps := by norm_num [defEps]
theorem defEps_lt_one : defEps < (1 : ℚ) := by norm_num [defEps]

theorem dblMax_big : (10 ^ 6 : ℚ) ≤ dblMax := by
  have h : ∀ x : ℚ, 1 ≤ x → (10 ^ 6 : ℚ) ≤ (2 ^ 53 - 1) * x := by
    intro x hx; norm_num; linarith
  exact h _ (one_le_pow₀ (by norm_num))

/-- A command-line environment for the examples. -/
def demoCli : CliEnv := ⟨true, false, fun _ => (false, 0)⟩

/-! ## Helpers -/

theorem rangeAllowed_sound {v mn mx inf neginf : ℚ} (h : rangeAllowed v mn mx inf neginf = true)
    (hmn : mn ≤ inf - defEps) (hmx : neginf + defEps ≤ mx)
    (hle : mn ≤ mx) (hv : v ≤ inf) (hv' : neginf ≤ v) :
    mn - defEps < v ∧ v < mx + defEps := by
  have he := defEps_pos
  have hi1 : isInfinity mn inf = false := by
    simp [isInfinity, lessThanVal]; constructor <;> linarith
  have hi2 : isNegInfinity mx neginf = false := by
    simp [isNegInfinity, greaterThanVal]; constructor <;> linarith
  unfold rangeAllowed at h
  rw [hi1, hi2] at h
  simp only [Bool.false_or] at h
  split at h
  · rename_i hA
    simp only [Bool.and_eq_true, greaterThanVal_iff] at hA
    obtain ⟨h1, h2⟩ := hA
    simp only [isInfinity, Bool.or_eq_true, decide_eq_true_eq, Bool.not_eq_true', lessThanVal,
      decide_eq_false_iff_not, not_le] at h2
    constructor
    · linarith
    · rcases h2 with h2 | h2 <;> linarith
  · split at h
    · rename_i hB
      simp only [Bool.and_eq_true, lessThanVal_iff] at hB
      obtain ⟨h1, h2⟩ := hB
      simp only [isNegInfinity, Bool.or_eq_true, decide_eq_true_eq, Bool.not_eq_true',
        greaterThanVal, decide_eq_false_iff_not, not_le] at h2
      constructor
      · rcases h2 with h2 | h2
        · linarith
        · linarith
      · linarith
    · split at h
      · rename_i hC
        rw [isVal_iff] at h hC
        rw [abs_lt] at h hC
        constructor
        · linarith [h.1]
        · linarith [h.2]
      · simp only [Bool.not_eq_true', Bool.or_eq_false_iff] at h
        have h1 := h.1; have h2 := h.2
        rw [← Bool.not_eq_true, lessThanVal_iff, not_le] at h1
        rw [← Bool.not_eq_true, greaterThanVal_iff, not_le] at h2
        exact ⟨h1, h2⟩

theorem rangeAllowed_complete {v mn mx inf neginf : ℚ} (h1 : mn ≤ v) (h2 : v ≤ mx) :
    rangeAllowed v mn mx inf neginf = true := by
  have he := defEps_pos
  unfold rangeAllowed
  split
  · rfl
  split
  · rfl
  split
  · rename_i hC
    rw [isVal_iff, abs_lt] at *
    constructor <;> linarith [hC.1, hC.2]
  · simp only [Bool.not_eq_true', Bool.or_eq_false_iff]
    constructor
    · rw [← Bool.not_eq_true, lessThanVal_iff, not_le]; linarith
    · rw [← Bool.not_eq_true, greaterThanVal_iff, not_le]; linarith

theorem int_tol {a b : Int} (h : (a : ℚ) - defEps < b) : a ≤ b := by
  have := defEps_lt_one
  have h2 : (a : ℚ) < ((b + 1 : Int) : ℚ) := by push_cast; linarith
  have := Int.cast_lt.mp h2
  omega

theorem int_tol' {a b : Int} (h : (b : ℚ) < a + defEps) : b ≤ a := by
  apply int_tol; linarith

/-! ## C17: one parameter -/

/-- C17 (one integer parameter): if setting a value did not stop the process, the value is stored
and is a documented one. The three hypotheses on the bounds (consistent, lower bound below the
largest `int`, upper bound above the smallest) hold for every integer parameter of the program
(`int_table_bounds`). -/
theorem int_set_documented (p q : IntP) (v : Int) (hb : p.mn ≤ p.mx) (hmn : p.mn < intMax)
    (hmx : intMin < p.mx) (hv : IsInt v) (h : p.set v = some q) :
    q.val = v ∧ p.Documented v := by
  unfold IntP.set at h
  simp only [Option.ite_none_right_eq_some, Option.some.injEq] at h
  obtain ⟨hok, rfl⟩ := h
  refine ⟨rfl, ?_⟩
  unfold IntP.ok at hok
  simp only [] at hok
  split at hok
  · rename_i ha
    left; exact ⟨ha, by simpa using hok⟩
  · rename_i ha
    right
    have he := defEps_lt_one
    have e1 : ((p.mn : ℚ)) ≤ (intMax : ℚ) - defEps := by
      have : ((p.mn + 1 : Int) : ℚ) ≤ (intMax : Int) := Int.cast_le.mpr hmn
      push_cast at this; linarith
    have e2 : (intMin : ℚ) + defEps ≤ p.mx := by
      have : ((intMin + 1 : Int) : ℚ) ≤ (p.mx : Int) := Int.cast_le.mpr hmx
      push_cast at this; linarith
    have := rangeAllowed_sound hok e1 e2 (by exact_mod_cast hb) (by exact_mod_cast hv.2)
      (by exact_mod_cast hv.1)
    exact ⟨by simpa using ha, int_tol this.1, int_tol' this.2⟩

/-- C17 (no spurious error): a documented value is never refused. -/
theorem int_set_accepts (p : IntP) (v : Int) (h : p.Documented v) :
    p.set v = some { p with val := v } := by
  unfold IntP.set
  have : IntP.ok { p with val := v } = true := by
    unfold IntP.ok
    rcases h with ⟨h1, h2⟩ | ⟨h1, h2, h3⟩
    · simp [h1, h2]
    · simp only [h1, ne_eq, not_true_eq_false, ↓reduceIte]
      exact rangeAllowed_complete (by exact_mod_cast h2) (by exact_mod_cast h3)
  simp [this]

/-- C17 (one real parameter), partial: the hypotheses exclude a lower bound at infinity (the
parameter `INF`, see `INF_accepts_anything`). -/
theorem dbl_set_documented_partial (p q : DblP) (v : ℚ) (hb : p.mn ≤ p.mx)
    (hmn : p.mn ≤ dblMax - defEps) (hmx : -dblMax + defEps ≤ p.mx) (hv : |v| ≤ dblMax)
    (h : p.set v = some q) : q.val = v ∧ p.DocumentedTol v := by
  unfold DblP.set at h
  simp only [Option.ite_none_right_eq_some, Option.some.injEq] at h
  obtain ⟨hok, rfl⟩ := h
  rw [abs_le] at hv
  exact ⟨rfl, rangeAllowed_sound hok hmn hmx hb hv.2 hv.1⟩

/-- C17 (no spurious error) for real parameters. -/
theorem dbl_set_accepts (p : DblP) (v : ℚ) (h1 : p.mn ≤ v) (h2 : v ≤ p.mx) :
    p.set v = some { p with val := v } := by
  unfold DblP.set
  have : DblP.ok { p with val := v } = true := rangeAllowed_complete h1 h2
  simp [this]

/-- C17 is violated by the parameter `INF`, declared with minimum = maximum = `DBL_MAX`: every
value is accepted. -/
theorem INF_accepts_anything (v : ℚ) : ∃ q, (dblDefaults .INF).set v = some q ∧ q.val = v := by
  refine ⟨{ dblDefaults .INF with val := v }, ?_, rfl⟩
  unfold DblP.set DblP.ok rangeAllowed
  simp [dblDefaults, isInfinity]

/-- The concrete violation: 0 is accepted for `INF` although it is far from the only documented
value. -/
theorem INF_violates_C17 :
    ∃ q, (dblDefaults .INF).set 0 = some q ∧ ¬ (dblDefaults .INF).DocumentedTol q.val := by
  obtain ⟨q, h, hv⟩ := INF_accepts_anything 0
  refine ⟨q, h, ?_⟩
  rw [hv]
  have := dblMax_big
  have := defEps_lt_one
  simp only [DblP.DocumentedTol, dblDefaults, not_and, not_lt]
  intro h; linarith

/-! ## C17: the whole parameter set, any history -/

/-- Every integer parameter of the program satisfies the hypotheses of `int_set_documented`. -/
theorem int_table_bounds (i : IntId) :
    (intDefaults i).mn ≤ (intDefaults i).mx ∧ (intDefaults i).mn < intMax ∧
      intMin < (intDefaults i).mx := by
  cases i <;> simp [intDefaults, intMin, intMax]

/-- Every real parameter except `INF` satisfies those of `dbl_set_documented_partial`. -/
theorem dbl_table_bounds (i : DblId) (hi : i ≠ .INF) :
    (dblDefaults i).mn ≤ (dblDefaults i).mx ∧ (dblDefaults i).mn ≤ dblMax - defEps ∧
      -dblMax + defEps ≤ (dblDefaults i).mx := by
  have h1 := dblMax_big
  have h2 := defEps_lt_one
  have h3 := defEps_pos
  cases i <;> first
    | exact absurd rfl hi
    | (simp only [dblDefaults]; refine ⟨?_, ?_, ?_⟩ <;> linarith)

/-- Everything that can change a parameter set: setting by identifier, setting by name, one
command-line option, one line of a parameter file. -/
inductive POp
  | setI (i : IntId) (v : Int)
  | setD (i : DblId) (v : ℚ)
  | setS (i : StrId) (v : String)
  | named (nm v : String)
  | cli (c : Cli) (arg : List Char)
  | line (l : List Char)

/-- Effect of one operation. -/
def POp.run (env : CliEnv) (p : Params) : POp → Option Params
  | .setI i v => p.setI i v
  | .setD i v => p.setD i v
  | .setS i v => some (p.setS i v)
  | .named nm v => (p.setByName env nm v).map (·.1)
  | .cli c arg => cliStep env p c arg
  | .line l => readParamsLine env p l

/-- Values handed to an operation are C++ `int`s / finite doubles. -/
def POp.Typed : POp → Prop
  | .setI _ v => IsInt v
  | .setD _ v => |v| ≤ dblMax
  | _ => True

/-- Invariant: the declaration of each parameter is unchanged and its value is documented. -/
structure PInv (p : Params) : Prop where
  ints : ∀ i, ∃ v, p.ints i = { intDefaults i with val := v } ∧ IsInt v ∧
    (intDefaults i).Documented v
  dbls : ∀ i, ∃ v, p.dbls i = { dblDefaults i with val := v } ∧
    (i ≠ .INF → (dblDefaults i).DocumentedTol v)
  strs : ∀ i, (p.strs i).1 = (strDefaults i).1

theorem PInv_default : PInv Params.default := by
  constructor
  · intro i
    refine ⟨(intDefaults i).val, rfl, ?_, ?_⟩
    · cases i <;> simp [intDefaults, IsInt, intMin, intMax]
    · cases i <;> simp [intDefaults, IntP.Documented, intMin, intMax]
  · intro i
    refine ⟨(dblDefaults i).val, rfl, ?_⟩
    intro hi
    have h1 := dblMax_big
    have h2 := defEps_lt_one
    have h3 := defEps_pos
    cases i <;> first
      | exact absurd rfl hi
      | (simp only [dblDefaults, DblP.DocumentedTol]; constructor <;> linarith)
  · intro i; rfl

theorem PInv_setI {p q : Params} (hp : PInv p) {i : IntId} {v : Int} (hv : IsInt v)
    (h : p.setI i v = some q) : PInv q := by
  unfold Params.setI at h
  simp only [Option.map_eq_some_iff] at h
  obtain ⟨r, hr, rfl⟩ := h
  obtain ⟨w, hw, -, -⟩ := hp.ints i
  have hb := int_table_bounds i
  have hd := int_set_documented (p.ints i) r v (by rw [hw]; exact hb.1) (by rw [hw]; exact hb.2.1)
    (by rw [hw]; exact hb.2.2) hv hr
  constructor
  · intro j
    simp only []
    split
    · subst j
      refine ⟨v, ?_, hv, ?_⟩
      · unfold IntP.set at hr
        simp only [Option.ite_none_right_eq_some, Option.some.injEq] at hr
        rw [← hr.2, hw]
      · have := hd.2; rw [hw] at this; exact this
    · exact hp.ints j
  · exact hp.dbls
  · exact hp.strs

theorem PInv_setD {p q : Params} (hp : PInv p) {i : DblId} {v : ℚ} (hv : |v| ≤ dblMax)
    (h : p.setD i v = some q) : PInv q := by
  unfold Params.setD at h
  simp only [Option.map_eq_some_iff] at h
  obtain ⟨r, hr, rfl⟩ := h
  obtain ⟨w, hw, -⟩ := hp.dbls i
  constructor
  · exact hp.ints
  · intro j
    simp only []
    split
    · subst j
      refine ⟨v, ?_, ?_⟩
      · unfold DblP.set at hr
        simp only [Option.ite_none_right_eq_some, Option.some.injEq] at hr
        rw [← hr.2, hw]
      · intro hi
        have hb := dbl_table_bounds i hi
        have hd := dbl_set_documented_partial (p.dbls i) r v (by rw [hw]; exact hb.1)
          (by rw [hw]; exact hb.2.1) (by rw [hw]; exact hb.2.2) hv hr
        have := hd.2; rw [hw] at this; exact this
    · exact hp.dbls j
  · exact hp.strs

theorem PInv_setS {p : Params} (hp : PInv p) (i : StrId) (v : String) : PInv (p.setS i v) := by
  refine ⟨hp.ints, hp.dbls, ?_⟩
  intro j
  simp only [Params.setS]
  split
  · subst j; exact hp.strs _
  · exact hp.strs j

theorem isInt_toInt (b : BitVec 32) : IsInt b.toInt := by
  have h1 := b.toInt_lt
  have h2 := b.le_toInt
  simp only [IsInt, intMin, intMax]
  omega

theorem isInt_parse (s : List Char) : IsInt (parseInt s).2 := isInt_toInt _

theorem isInt_named (s : String) : IsInt (namedIntValue s) := by
  unfold namedIntValue
  simp only [IsInt, intMin, intMax]
  split_ifs <;> norm_num

theorem abs_named (env : CliEnv) (s : String) : |namedDblValue env s| ≤ dblMax := by
  unfold namedDblValue
  have : (1 : ℚ) ≤ dblMax := by linarith [dblMax_big]
  split_ifs
  · rw [abs_of_nonneg]; linarith
  · rw [abs_neg, abs_of_nonneg]; linarith
  · simpa using this
  · simp; linarith

theorem PInv_named {env : CliEnv} {p : Params} (hp : PInv p) {nm v : String} {r : Params × Bool}
    (h : p.setByName env nm v = some r) : PInv r.1 := by
  unfold Params.setByName at h
  split at h
  · simp only [Option.map_eq_some_iff] at h
    obtain ⟨q, hq, rfl⟩ := h
    exact PInv_setI hp (isInt_named v) hq
  · split at h
    · simp only [Option.map_eq_some_iff] at h
      obtain ⟨q, hq, rfl⟩ := h
      exact PInv_setD hp (abs_named env v) hq
    · split at h
      · cases h; exact PInv_setS hp _ _
      · cases h; exact hp

theorem PInv_cli {env : CliEnv} (henv : ∀ s, |(env.parseDouble s).2| ≤ dblMax) {p q : Params}
    (hp : PInv p) {c : Cli} {arg : List Char} (h : cliStep env p c arg = some q) : PInv q := by
  cases c with
  | int i =>
    simp only [cliStep] at h
    split at h
    · exact PInv_setI hp (isInt_parse arg) h
    · cases h
  | dbl i =>
    simp only [cliStep] at h
    split at h
    · exact PInv_setD hp (henv arg) h
    · cases h
  | str i => simp only [cliStep, Option.some.injEq] at h; subst h; exact PInv_setS hp _ _
  | switch s =>
    simp only [cliStep] at h
    split at h
    · cases h
    · exact PInv_setI hp (isInt_toInt _) h
  | bbStrategy =>
    simp only [cliStep] at h
    split at h
    · cases h
    · simp only [Option.bind_eq_bind, Option.bind_eq_some_iff] at h
      obtain ⟨r, hr, h⟩ := h
      split at h
      · cases h
      · split at h
        · cases h
        · cases h; exact PInv_setI hp (isInt_parse arg) hr
  | preprocess =>
    simp only [cliStep] at h
    split at h
    · cases h
    · simp only [Option.bind_eq_bind, Option.bind_eq_some_iff] at h
      obtain ⟨p1, h1, p2, h2, p3, h3, p4, h4, h5⟩ := h
      have i1 := PInv_setI hp (isInt_parse arg) h1
      have i2 := PInv_setI i1 (by simp [IsInt, intMin, intMax]) h2
      have i3 := PInv_setI i2 (by simp [IsInt, intMin, intMax]) h3
      have i4 := PInv_setI i3 (isInt_toInt _) h4
      refine PInv_setD i4 ?_ h5
      rw [abs_of_nonneg (by norm_num)]; linarith [dblMax_big]
  | temp =>
    simp only [cliStep] at h
    split at h
    · cases h
    · exact PInv_setI hp (isInt_toInt _) h
  | tikz =>
    simp only [cliStep] at h
    split at h
    · cases h
    · exact PInv_setI hp (isInt_toInt _) h
  | help => simp [cliStep] at h

/-- C17 for the whole parameter set: after any history of sets (by identifier, by name, from the
command line, from a parameter file) that has not stopped the process, every integer parameter has
a documented value and every real parameter except `INF` lies in its documented range up to the
tolerance. The hypotheses say that the values passed are C++ ints and finite doubles. (Full C17
fails for `INF`: `INF_violates_C17`.) -/
theorem params_always_documented_partial (env : CliEnv)
    (henv : ∀ s, |(env.parseDouble s).2| ≤ dblMax) (ops : List POp) (hops : ∀ o ∈ ops, o.Typed)
    (q : Params) (h : ops.foldlM (POp.run env) Params.default = some q) :
    (∀ i, (intDefaults i).Documented (q.getI i)) ∧
      (∀ i, i ≠ .INF → (dblDefaults i).DocumentedTol (q.getD i)) := by
  have key : ∀ (ops : List POp) (p q : Params), (∀ o ∈ ops, o.Typed) → PInv p →
      ops.foldlM (POp.run env) p = some q → PInv q := by
    intro ops
    induction ops with
    | nil => intro p q _ hp h; simp only [List.foldlM_nil, Option.pure_def, Option.some.injEq] at h
             exact h ▸ hp
    | cons o ops ih =>
      intro p q ht hp h
      simp only [List.foldlM_cons, Option.bind_eq_bind, Option.bind_eq_some_iff] at h
      obtain ⟨r, hr, h⟩ := h
      refine ih r q (fun o ho => ht o (List.mem_cons_of_mem _ ho)) ?_ h
      have hto := ht o List.mem_cons_self
      cases o with
      | setI i v => exact PInv_setI hp hto hr
      | setD i v => exact PInv_setD hp hto hr
      | setS i v =>
        simp only [POp.run, Option.some.injEq] at hr; subst hr; exact PInv_setS hp i v
      | named nm v =>
        simp only [POp.run, Option.map_eq_some_iff] at hr
        obtain ⟨x, hx, rfl⟩ := hr; exact PInv_named hp hx
      | cli c arg => exact PInv_cli henv hp hr
      | line l =>
        simp only [POp.run, readParamsLine] at hr
        split at hr
        · cases hr; exact hp
        · split at hr
          · cases hr
          · simp only [Option.map_eq_some_iff] at hr
            obtain ⟨x, hx, rfl⟩ := hr; exact PInv_named hp hx
  have hq := key ops _ q hops PInv_default h
  constructor
  · intro i
    obtain ⟨v, hv, _, hd⟩ := hq.ints i
    simp only [Params.getI, hv]; exact hd
  · intro i hi
    obtain ⟨v, hv, hd⟩ := hq.dbls i
    simp only [Params.getD, hv]; exact hd hi

/-- Non-vacuity: a history that succeeds and one that stops. -/
example :
    (([.setI .MODE 3, .named "x" "7"] : List POp).foldlM (POp.run demoCli) Params.default).map
        (fun p => (p.getI .MODE, p.getI .CUTLIMIT)) = some (3, 1) ∧
    (([.setI .MODE 2] : List POp).foldlM (POp.run demoCli) Params.default).isNone := by
  constructor <;> decide +kernel

/-! ## C18: setting by name -/

/-- What setting an integer parameter by name ought to do: if `nm` names parameter `i` up to case
and underscores and `v` is a documented value of it, then setting by the decimal text of `v`
succeeds, `i` has the value `v` and every other parameter is as before. -/
def SetsNamedInt (setter : Params → String → String → Option (Params × Bool)) : Prop :=
  ∀ (p : Params) (nm : String) (i : IntId) (v : Int),
    upperNoUnderscore nm = upperNoUnderscore (intDefaults i).name →
    IsInt v → (intDefaults i).Documented v →
    ∃ q, setter p nm (toString v) = some (q, true) ∧ q.getI i = v ∧
      (∀ j, j ≠ i → q.ints j = p.ints j) ∧ q.dbls = p.dbls ∧ q.strs = p.strs

/-- Unknown names ought to be rejected. -/
def RejectsUnknown (setter : Params → String → String → Option (Params × Bool)) : Prop :=
  ∀ (p : Params) (nm v : String),
    (∀ i, upperNoUnderscore nm ≠ upperNoUnderscore (intDefaults i).name) →
    (∀ i, upperNoUnderscore nm ≠ upperNoUnderscore (dblDefaults i).name) →
    (∀ i, upperNoUnderscore nm ≠ upperNoUnderscore (strDefaults i).1) →
    setter p nm v = some (p, false)

/-- What setting by name really does, for any parameter set reachable from the defaults: whatever
the name, it sets `CUTLIMIT` and nothing else, to `INT_MAX`, `INT_MIN`, 1 (the value text is an
integer) or 0 (it is not). -/
theorem setByName_effect (env : CliEnv) (p : Params) (hp : PInv p) (nm v : String) :
    p.setByName env nm v = some
      ({ p with ints := fun j => if j = .CUTLIMIT then
          { intDefaults .CUTLIMIT with val :=
              if v = "+inf" then intMax else if v = "-inf" then intMin
              else if (parseInt v.toList).1 then 1 else 0 }
          else p.ints j }, true) := by
  have hname : (p.ints .CUTLIMIT).name = "CUTLIMIT" := by
    obtain ⟨w, hw, -⟩ := hp.ints .CUTLIMIT; rw [hw]; rfl
  have hfind : IntId.all.find?
      (fun i => upperNoUnderscore (p.ints i).name == (p.ints i).name) = some .CUTLIMIT := by
    unfold IntId.all
    rw [List.find?_cons_of_pos]
    rw [hname]; decide +kernel
  unfold Params.setByName
  rw [hfind]
  simp only []
  have hset : (p.ints .CUTLIMIT).set (namedIntValue v) =
      some { intDefaults .CUTLIMIT with val := namedIntValue v } := by
    obtain ⟨w, hw, -⟩ := hp.ints .CUTLIMIT
    rw [hw, int_set_accepts _ _ _]
    have := isInt_named v
    right; exact ⟨rfl, this.1, this.2⟩
  unfold Params.setI
  rw [hset]
  rfl

/-- C18 is violated: setting `DISJ_TERMS` to 64 by name changes `CUTLIMIT` instead. -/
theorem setByName_violates_C18 (env : CliEnv) : ¬ SetsNamedInt (Params.setByName env) := by
  intro h
  obtain ⟨q, hq, hv, -⟩ := h Params.default "DISJ_TERMS" .DISJ_TERMS 64 rfl
    (by simp [IsInt, intMin, intMax]) (by simp [IntP.Documented, intDefaults, intMin, intMax])
  rw [setByName_effect env _ PInv_default] at hq
  simp only [Option.some.injEq, Prod.mk.injEq, and_true] at hq
  subst hq
  revert hv
  simp [Params.getI, Params.default, intDefaults]

/-- C18 is violated: an unknown name is not rejected. -/
theorem setByName_never_rejects (env : CliEnv) : ¬ RejectsUnknown (Params.setByName env) := by
  intro h
  have := h Params.default "NOSUCH" "1"
    (by intro i; cases i <;> decide +kernel) (by intro i; cases i <;> decide +kernel)
    (by intro i; cases i <;> decide +kernel)
  rw [setByName_effect env _ PInv_default] at this
  simp at this

/-- C18, the part that holds: setting `CUTLIMIT` itself (in any spelling) to 1 sets it to 1 and
changes no other parameter; missing: every other parameter and value. -/
theorem setByName_partial (env : CliEnv) (p : Params) (hp : PInv p) (nm : String)
    (_hn : upperNoUnderscore nm = "CUTLIMIT") :
    ∃ q, p.setByName env nm "1" = some (q, true) ∧ q.getI .CUTLIMIT = 1 ∧
      (∀ j, j ≠ .CUTLIMIT → q.ints j = p.ints j) ∧ q.dbls = p.dbls ∧ q.strs = p.strs := by
  refine ⟨_, setByName_effect env p hp nm "1", ?_, ?_, rfl, rfl⟩
  · have : (parseInt ['1']).1 = true := by decide +kernel
    simp [Params.getI, this]
  · intro j hj; simp [hj]

example : upperNoUnderscore "cut_limit" = "CUTLIMIT" ∧ PInv Params.default :=
  ⟨by decide +kernel, PInv_default⟩

/-- Consequence for parameter files: reading any file (of which every nonempty line has a value)
leaves every parameter except `CUTLIMIT` unchanged. -/
theorem readParams_only_cutlimit (env : CliEnv) (lines : List (List Char)) (p q : Params)
    (hp : PInv p) (h : readParams env p lines = some q) :
    (∀ j, j ≠ .CUTLIMIT → q.ints j = p.ints j) ∧ q.dbls = p.dbls ∧ q.strs = p.strs := by
  induction lines generalizing p with
  | nil => simp only [readParams, List.foldlM_nil, Option.pure_def, Option.some.injEq] at h
           subst h; exact ⟨fun _ _ => rfl, rfl, rfl⟩
  | cons l ls ih =>
    simp only [readParams, List.foldlM_cons, Option.bind_eq_bind, Option.bind_eq_some_iff] at h
    obtain ⟨r, hr, h⟩ := h
    have hr' : PInv r ∧ (∀ j, j ≠ .CUTLIMIT → r.ints j = p.ints j) ∧ r.dbls = p.dbls ∧
        r.strs = p.strs := by
      simp only [readParamsLine] at hr
      split at hr
      · cases hr; exact ⟨hp, fun _ _ => rfl, rfl, rfl⟩
      · split at hr
        · cases hr
        · simp only [Option.map_eq_some_iff] at hr
          obtain ⟨x, hx, rfl⟩ := hr
          refine ⟨PInv_named hp hx, ?_⟩
          rw [setByName_effect env p hp] at hx
          cases hx
          exact ⟨fun j hj => by simp [hj], rfl, rfl⟩
    obtain ⟨hi, h1, h2, h3⟩ := hr'
    obtain ⟨g1, g2, g3⟩ := ih r hi h
    exact ⟨fun j hj => (g1 j hj).trans (h1 j hj), g2.trans h2, g3.trans h3⟩

/-- Non-vacuity, and the line without a value that terminates the process. -/
example :
    (readParams demoCli Params.default ["MODE,3".toList]).map (fun p => (p.getI .MODE, p.getI .CUTLIMIT))
      = some (0, 1) ∧
    (readParams demoCli Params.default ["MODE".toList]).isNone := by
  constructor <;> decide +kernel

/-! ## C51: integer arguments -/

/-- The text of an integer in decimal, as a user types it. -/
def decimal (n : Int) : List Char :=
  if n < 0 then '-' :: Nat.toDigits 10 n.natAbs else Nat.toDigits 10 n.natAbs

theorem toDigits_ne_nil (n : Nat) : Nat.toDigits 10 n ≠ [] := Nat.toDigits_ne_nil

theorem digit_not_space {c : Char} (h : c.isDigit = true) : isCSpace c = false := by
  simp only [Char.isDigit, Bool.and_eq_true, decide_eq_true_eq] at h
  simp only [isCSpace, Bool.or_eq_false_iff, beq_eq_false_iff_ne, ne_eq]
  refine ⟨⟨⟨⟨⟨?_, ?_⟩, ?_⟩, ?_⟩, ?_⟩, ?_⟩ <;> (rintro rfl; revert h; decide)

theorem digit_ne_sign {c : Char} (h : c.isDigit = true) : c ≠ '-' ∧ c ≠ '+' := by
  constructor <;> (rintro rfl; revert h; decide)

theorem takeWhile_all {l : List Char} (h : ∀ c ∈ l, c.isDigit = true) :
    l.takeWhile Char.isDigit = l ∧ l.dropWhile Char.isDigit = [] := by
  induction l with
  | nil => simp
  | cons a l ih =>
    have ha := h a List.mem_cons_self
    have := ih (fun c hc => h c (List.mem_cons_of_mem _ hc))
    simp [ha, this.1, this.2]

theorem all_of_dropWhile_nil {l : List Char} (h : l.dropWhile Char.isDigit = []) :
    ∀ c ∈ l, c.isDigit = true := by
  induction l with
  | nil => simp
  | cons a l ih =>
    rw [List.dropWhile_cons] at h
    split at h
    · rename_i ha
      intro c hc
      rcases List.mem_cons.mp hc with rfl | hc
      · exact ha
      · exact ih h c hc
    · cases h

theorem all_takeWhile {p : Char → Bool} {l : List Char} : ∀ c ∈ l.takeWhile p, p c = true := by
  induction l with
  | nil => simp
  | cons a l ih =>
    rw [List.takeWhile_cons]
    split
    · rename_i ha
      intro c hc
      rcases List.mem_cons.mp hc with rfl | hc
      · exact ha
      · exact ih c hc
    · simp

theorem takeWhile_digits (n : Nat) :
    (Nat.toDigits 10 n).takeWhile Char.isDigit = Nat.toDigits 10 n :=
  (takeWhile_all fun _ hc => Nat.isDigit_of_mem_toDigits (by omega) (by omega) hc).1

theorem dropWhile_digits (n : Nat) : (Nat.toDigits 10 n).dropWhile Char.isDigit = [] :=
  (takeWhile_all fun _ hc => Nat.isDigit_of_mem_toDigits (by omega) (by omega) hc).2

theorem digitsVal_toDigits (n : Nat) : digitsVal (Nat.toDigits 10 n) = n := by
  have := Nat.ofDigitChars_ten_toDigits (n := n)
  rw [Nat.ofDigitChars_eq_foldl] at this
  exact this

/-- The decimal text of any `long` parses to that number. -/
theorem parseLong_decimal (n : Int) (h1 : longMin ≤ n) (h2 : n ≤ longMax) :
    parseLong (decimal n) = (true, n) := by
  have hs : strtol (decimal n) = (n, false, [], false) := by
    unfold decimal strtol
    obtain ⟨c, cs, hc⟩ : ∃ c cs, Nat.toDigits 10 n.natAbs = c :: cs :=
      List.exists_cons_of_ne_nil (toDigits_ne_nil _)
    have hcd : c.isDigit = true := Nat.isDigit_of_mem_toDigits (b := 10) (n := n.natAbs)
      (by omega) (by omega) (by rw [hc]; exact List.mem_cons_self)
    split
    · rename_i hneg
      have hd : List.dropWhile isCSpace ('-' :: Nat.toDigits 10 n.natAbs) =
          '-' :: Nat.toDigits 10 n.natAbs := by
        rw [List.dropWhile_cons_of_neg]; decide
      have hs : stripSign ('-' :: Nat.toDigits 10 n.natAbs) = (true, Nat.toDigits 10 n.natAbs) := by
        simp [stripSign]
      rw [hd, hs]
      simp only [takeWhile_digits, dropWhile_digits, digitsVal_toDigits, toDigits_ne_nil, if_false,
        if_true]
      have : -(n.natAbs : Int) = n := by omega
      rw [this, if_neg (by omega), if_neg (by omega)]
    · rename_i hneg
      have hd : List.dropWhile isCSpace (Nat.toDigits 10 n.natAbs) = Nat.toDigits 10 n.natAbs := by
        rw [hc, List.dropWhile_cons_of_neg]; rw [digit_not_space hcd]; decide
      have hs : stripSign (Nat.toDigits 10 n.natAbs) = (false, Nat.toDigits 10 n.natAbs) := by
        rw [hc]; simp [stripSign, (digit_ne_sign hcd).1, (digit_ne_sign hcd).2]
      rw [hd, hs]
      simp only [takeWhile_digits, dropWhile_digits, digitsVal_toDigits, toDigits_ne_nil, if_false]
      have : (n.natAbs : Int) = n := by omega
      simp only [this, Bool.false_eq_true, if_false]
      rw [if_neg (by omega), if_neg (by omega)]
  unfold parseLong
  rw [hs]
  simp

theorem castInt_of_isInt {n : Int} (h : IsInt n) : castInt n = n := by
  unfold castInt
  rw [BitVec.toInt_ofInt]
  simp only [IsInt, intMin, intMax] at h
  rw [Int.bmod_def]
  split <;> omega

/-- C51, the part that holds: the decimal text of an `int` parses to exactly that number. -/
theorem parseInt_decimal_partial (n : Int) (h : IsInt n) : parseInt (decimal n) = (true, n) := by
  unfold parseInt
  have h' := h
  simp only [IsInt, intMin, intMax] at h
  rw [parseLong_decimal n (by simp only [longMin]; omega) (by simp only [longMax]; omega)]
  simp [castInt_of_isInt h']

example : IsInt (-17) ∧ decimal (-17) = "-17".toList :=
  ⟨by simp [IsInt, intMin, intMax], by decide +kernel⟩

/-- C51: text that is not exactly an optionally signed decimal number with optional leading blanks
is refused. -/
theorem parseInt_shape (s : List Char) (h : (parseInt s).1 = true) :
    ∃ ws sign ds, s = ws ++ sign ++ ds ∧ (∀ c ∈ ws, isCSpace c = true) ∧
      (sign = [] ∨ sign = ['-'] ∨ sign = ['+']) ∧ ds ≠ [] ∧ ∀ c ∈ ds, c.isDigit = true := by
  have h : (parseLong s).1 = true := h
  unfold parseLong at h
  have key : (strtol s).2.1 = false ∧ (strtol s).2.2.1 = [] := by
    simp only [Bool.not_eq_true', Bool.or_eq_false_iff, decide_eq_false_iff_not, ne_eq,
      not_not] at h
    exact ⟨h.1.1, h.1.2⟩
  obtain ⟨k1, k2⟩ := key
  have hsplit := List.takeWhile_append_dropWhile (p := isCSpace) (l := s)
  have hds : (stripSign (s.dropWhile isCSpace)).2.takeWhile Char.isDigit ≠ [] ∧
      (stripSign (s.dropWhile isCSpace)).2.dropWhile Char.isDigit = [] := by
    unfold strtol at k1 k2
    simp only [] at k1 k2
    split at k1
    · cases k1
    · rename_i hne
      refine ⟨hne, ?_⟩
      rw [if_neg hne] at k2
      split_ifs at k2 <;> exact k2
  have hsig : ∃ sign, s.dropWhile isCSpace = sign ++ (stripSign (s.dropWhile isCSpace)).2 ∧
      (sign = [] ∨ sign = ['-'] ∨ sign = ['+']) := by
    cases hd : s.dropWhile isCSpace with
    | nil => exact ⟨[], by simp [stripSign]⟩
    | cons c t =>
      simp only [stripSign]
      split_ifs with h1 h2
      · exact ⟨['-'], by simp [h1]⟩
      · exact ⟨['+'], by simp [h2]⟩
      · exact ⟨[], by simp⟩
  obtain ⟨sign, e1, e2⟩ := hsig
  refine ⟨s.takeWhile isCSpace, sign, (stripSign (s.dropWhile isCSpace)).2, ?_, all_takeWhile, e2,
    ?_, all_of_dropWhile_nil hds.2⟩
  · rw [List.append_assoc, ← e1, hsplit]
  · intro h0; rw [h0] at hds; simp at hds

/-- C51: and conversely every such text whose number is an `int` is accepted, with that number
(leading zeros, a plus sign and blanks in front make no difference). -/
theorem parseInt_value_partial (ws ds : List Char) (neg : Bool) (plus : Bool)
    (hws : ∀ c ∈ ws, isCSpace c = true) (hne : ds ≠ []) (hds : ∀ c ∈ ds, c.isDigit = true)
    (hv : IsInt (if neg then -(Nat.ofDigitChars 10 ds 0 : Int) else Nat.ofDigitChars 10 ds 0)) :
    parseInt (ws ++ (if neg then ['-'] else if plus then ['+'] else []) ++ ds) =
      (true, if neg then -(Nat.ofDigitChars 10 ds 0 : Int) else Nat.ofDigitChars 10 ds 0) := by
  rw [Nat.ofDigitChars_eq_foldl] at *
  set v : Int := if neg then -(digitsVal ds : Int) else digitsVal ds with hvdef
  have hv : IsInt v := hv
  show _ = (true, v)
  have hdrop : ∀ (ws t : List Char), (∀ c ∈ ws, isCSpace c = true) →
      (∀ c ∈ t.head?, isCSpace c = false) → (ws ++ t).dropWhile isCSpace = t := by
    intro ws t h1 h2
    induction ws with
    | nil =>
      cases t with
      | nil => rfl
      | cons a t => rw [List.nil_append, List.dropWhile_cons_of_neg]; simp [h2 a rfl]
    | cons a ws ih =>
      rw [List.cons_append, List.dropWhile_cons_of_pos (h1 a List.mem_cons_self)]
      exact ih (fun c hc => h1 c (List.mem_cons_of_mem _ hc))
  obtain ⟨c, cs, rfl⟩ := List.exists_cons_of_ne_nil hne
  have hc := hds c List.mem_cons_self
  have hall := takeWhile_all hds
  have hstr : strtol (ws ++ (if neg then ['-'] else if plus then ['+'] else []) ++ (c :: cs)) =
      (v, false, [], false) := by
    have hlong : ¬ v > longMax ∧ ¬ v < longMin := by
      simp only [IsInt, intMin, intMax] at hv
      simp only [longMax, longMin]; omega
    have hst : stripSign ((ws ++ (if neg then ['-'] else if plus then ['+'] else []) ++
        (c :: cs)).dropWhile isCSpace) = (neg, c :: cs) := by
      rw [List.append_assoc]
      rw [hdrop ws _ hws]
      · cases neg <;> cases plus <;> simp [stripSign, (digit_ne_sign hc).1, (digit_ne_sign hc).2]
      · cases neg <;> cases plus <;> simp [digit_not_space hc] <;> decide
    unfold strtol
    simp only [hst, hall.1, hall.2]
    rw [if_neg hne]
    rw [if_neg hlong.1, if_neg hlong.2]
  unfold parseInt parseLong
  rw [hstr]
  simp [castInt_of_isInt hv]

example : (∀ c ∈ [' '], isCSpace c = true) ∧ (∀ c ∈ ['0', '7'], c.isDigit = true) ∧
    IsInt (Nat.ofDigitChars 10 ['0', '7'] 0) ∧ parseInt [' ', '+', '0', '7'] = (true, 7) :=
  ⟨by decide, by decide, by decide +kernel, by decide +kernel⟩

/-- C51 is violated: a number outside the range of `int` is accepted and silently wrapped. -/
theorem parseInt_wraps : parseInt "4294967297".toList = (true, 1) := by decide +kernel

end VPC
