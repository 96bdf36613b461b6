import Verif.Props.LogTable
import Verif.Props.CutInfo

/-!
# The log file: every field stands under its name; gaps; splitting a line
-/
namespace VPC

/-! ## Timers -/

theorem insertName_length (nm : String) (id : ℕ) (l : List (String × ℕ)) :
    (l.find? (fun p => p.1 = nm)).map (·.2) = none → (insertName nm id l).length = l.length + 1 := by
  induction l with
  | nil => intro _; rfl
  | cons a l ih =>
    obtain ⟨k, i⟩ := a
    intro h
    simp only [List.find?_cons] at h
    by_cases hk : k = nm
    · simp [hk] at h
    · simp only [hk, decide_false] at h
      simp only [insertName, hk, if_false]
      split
      · simp
      · simp only [List.length_cons, ih h]

theorem register_all : ∀ (l : List String) (s : TimeStats) (now : Int), l.Nodup →
    (∀ n ∈ l, s.getId n = none) →
    ∃ t, s.run (l.map fun n => (TOp.register n 0, now)) = some t
      ∧ t.tmrs.length = s.tmrs.length + l.length ∧ t.names.length = s.names.length + l.length
      ∧ (∀ m, m ∉ l → t.getId m = s.getId m)
      ∧ ∀ i (h : i < l.length), t.getId l[i] = some (s.tmrs.length + i)
  | [], s, now, _, _ => ⟨s, rfl, by simp, by simp, fun _ _ => rfl, fun i h => absurd h (by simp)⟩
  | n :: l, s, now, hn, hs => by
    obtain ⟨hn1, hn2⟩ := List.nodup_cons.mp hn
    have hg : ∀ m ∈ l, (s.register n 0 now).getId m = none := by
      intro m hm
      rw [getId_register, if_neg (fun e : m = n => hn1 (e ▸ hm))]
      exact hs m (List.mem_cons_of_mem _ hm)
    obtain ⟨t, h1, h2, h3, h4, h5⟩ := register_all l (s.register n 0 now) now hn2 hg
    have hlen : (s.register n 0 now).tmrs.length = s.tmrs.length + 1 := by simp [TimeStats.register]
    have hnlen : (s.register n 0 now).names.length = s.names.length + 1 :=
      insertName_length n _ _ (hs n List.mem_cons_self)
    refine ⟨t, h1, ?_, ?_, ?_, ?_⟩
    · rw [h2, hlen, List.length_cons]; omega
    · rw [h3, hnlen, List.length_cons]; omega
    · intro m hm
      rw [List.mem_cons, not_or] at hm
      rw [h4 m hm.2, getId_register, if_neg hm.1]
    · intro i hi
      match i, hi with
      | 0, _ =>
        simp only [List.getElem_cons_zero]
        rw [h4 n hn1, getId_register, if_pos rfl]
        rfl
      | i + 1, hi =>
        simp only [List.getElem_cons_succ]
        rw [h5 i (by simpa using hi), hlen]
        congr 1; omega

theorem run_names : ∀ (h : List (TOp × Int)) (s t : TimeStats), (∀ x ∈ h, ∀ nm i, x.1 ≠ .register nm i) →
    s.run h = some t → t.names = s.names ∧ t.tmrs.length = s.tmrs.length
  | [], s, t, _, hr => by
    simp only [TimeStats.run, List.foldlM_nil, Option.pure_def, Option.some.injEq] at hr
    rw [hr]; exact ⟨rfl, rfl⟩
  | x :: h, s, t, hx, hr => by
    simp only [TimeStats.run, List.foldlM_cons, Option.bind_eq_bind, Option.bind_eq_some_iff] at hr
    obtain ⟨r, h1, h2⟩ := hr
    obtain ⟨a, b⟩ := step_names h1 (hx x List.mem_cons_self)
    obtain ⟨c, d⟩ := run_names h r t (fun y hy => hx y (List.mem_cons_of_mem _ hy)) h2
    exact ⟨c.trans a, d.trans b⟩

theorem timeNames_nodup : timeNames.Nodup := by decide +kernel

/-- Every time is printed under the name of its timer. -/
theorem time_eq {t : TimeStats} (h : MainTimer t) :
    timeCells t = timeNames.map fun n => Cell.val (.num ((t.getValue n : ℚ) / 1000000)) := by
  obtain ⟨now, ops, hops, hr⟩ := h
  rw [run_append] at hr
  obtain ⟨t0, h1, h2, h3, _, h5⟩ := register_all timeNames TimeStats.empty now timeNames_nodup
    (fun n _ => by simp [TimeStats.empty, TimeStats.getId])
  rw [h1] at hr
  obtain ⟨hn, hl⟩ := run_names ops t0 t hops hr
  have hg : ∀ m, t.getId m = t0.getId m := fun m => by simp [TimeStats.getId, hn]
  have hnl : t.names.length = timeNames.length := by rw [hn, h3]; simp [TimeStats.empty]
  have htl : t.tmrs.length = timeNames.length := by rw [hl, h2]; simp [TimeStats.empty]
  unfold timeCells
  apply List.ext_getElem
  · simp [hnl]
  · intro i h1' h2'
    have hi : i < timeNames.length := by simpa using h2'
    have hi' : i < t.tmrs.length := by omega
    have := h5 i hi
    simp only [List.getElem_map, List.getElem_range]
    unfold TimeStats.getTimeId TimeStats.getValue
    rw [hg, this]
    simp only [TimeStats.empty, List.length_nil, Nat.zero_add, List.getElem?_eq_getElem hi', clocksPerSec]
    norm_num

/-! ## The table -/

theorem bb_names : bbMeaning.map (·.1) = bbContents := rfl

theorem full_names : fullMeaning.map (·.1) = fullNames refName := by
  unfold fullMeaning fullNames
  rw [← bb_names]
  simp only [List.map_append, List.map_flatMap, List.map_map, List.flatMap_map, Function.comp_def, List.map_cons,
    List.map_nil, List.append_assoc]
  rfl

theorem header_eq (p : Params) (o : ParamOrder) : headerNames p o = (logTable p o).map (·.1) := by
  unfold headerNames logTable
  simp only [List.map_append, List.map_cons, List.map_map, Function.comp_def, full_names]
  have h1 : boundNames = boundMeaning.map (·.1) ++ gapMeaning.map (·.1) := rfl
  have h2 : summaryNames refName = summaryMeaning.map (·.1) := by decide +kernel
  have h3 : cutNames = postMeaning.map (·.1) ++ disjMeaning.map (·.1) ++ cutMeaning.map (·.1) := rfl
  have h4 : objFailNames = objMeaning.map (·.1) ++ failMeaning.map (·.1) := by
    unfold objFailNames objMeaning failMeaning
    simp only [List.map_cons, List.map_flatMap, List.map_map, Function.comp_def, List.map_nil]
  have h5 : timeMeaning.map (·.1) = timeNames := by
    unfold timeMeaning; simp only [List.map_map, Function.comp_def, List.map_id']
  have h6 : versionNames ++ (wrapNames ++ ["end"]) = wrapMeaning.map (·.1) := rfl
  have h7 : paramNames p o = (paramMeaning p o).map (·.1) := by
    unfold paramNames paramMeaning
    simp only [List.map_append, List.map_map, Function.comp_def]
  have h8 : probNames = probMeaning.map (·.1) := rfl
  rw [h1, h2, h3, h4, h5, ← h6, h7, h8]
  simp only [List.append_assoc, List.cons_append]

/-- Every field of the line of a run is the one its column stands for: the `i`-th name of the header
and the `i`-th field of the line are the two halves of the `i`-th entry of the table. The header may have
been written by an earlier run (`p`), as long as the parameters are visited in the same order. -/
theorem log_columns (p : Params) (d : RunData) (row : List Cell) (ht : MainTimer d.timer)
    (h : logRow d = .ok row) :
    headerNames p d.order = (logTable p d.order).map (·.1) ∧ row = (logTable p d.order).map (·.2 d) := by
  refine ⟨header_eq p d.order, ?_⟩
  unfold logRow at h
  rw [summary_eq, full_eq] at h
  obtain ⟨s, hs, h⟩ := Res.bind_ok h
  obtain ⟨og, hog, h⟩ := Res.bind_ok h
  obtain ⟨pc, hpc, h⟩ := Res.bind_ok h
  obtain ⟨ct, hct, h⟩ := Res.bind_ok h
  obtain ⟨f, hf, h⟩ := Res.bind_ok h
  cases hs; cases hf; cases h
  rw [printOrig_eq hog, printPost_eq hpc, printCut_eq hct, printBound_eq, printGap_eq, printDisj_eq, time_eq ht]
  unfold logTable
  have hp : paramCells d.params d.order = (paramMeaning p d.order).map (·.2 d) := by
    unfold paramCells paramMeaning
    simp only [List.map_append, List.map_map, Function.comp_def, cntCell, numCell]
  have hw : wrapCells d.wrap = wrapMeaning.map (·.2 d) := rfl
  have htm : timeMeaning.map (·.2 d) =
      timeNames.map fun n => Cell.val (.num ((d.timer.getValue n : ℚ) / 1000000)) := by
    unfold timeMeaning; simp only [List.map_map, Function.comp_def]
  rw [hp, hw]
  simp only [List.map_append, List.map_cons, List.map_map, Function.comp_def, htm, List.append_assoc,
    List.cons_append]

/-! ## Looking a column up by its name -/

/-- The parameters keep the names they have from the start. -/
def DefaultNames (p : Params) : Prop :=
  (∀ i, (p.ints i).name = (intDefaults i).name) ∧ (∀ i, (p.dbls i).name = (dblDefaults i).name)
    ∧ ∀ i, (p.strs i).1 = (strDefaults i).1

/-- The maps hold every parameter once. -/
def FullOrder (o : ParamOrder) : Prop :=
  o.ints.Perm IntId.all ∧ o.dbls.Perm DblId.all ∧ o.strs.Perm StrId.all

theorem default_names : DefaultNames Params.default := ⟨fun _ => rfl, fun _ => rfl, fun _ => rfl⟩

theorem set_names {p q : Params} (h : DefaultNames p) :
    (∀ i v, p.setI i v = some q → DefaultNames q) ∧ (∀ i v, p.setD i v = some q → DefaultNames q)
    ∧ ∀ i v, DefaultNames (p.setS i v) := by
  obtain ⟨h1, h2, h3⟩ := h
  refine ⟨?_, ?_, ?_⟩
  · intro i v e
    unfold Params.setI at e
    rw [Option.map_eq_some_iff] at e
    obtain ⟨x, hx, rfl⟩ := e
    refine ⟨fun j => ?_, h2, h3⟩
    by_cases hj : j = i
    · subst hj
      unfold IntP.set at hx
      dsimp only at hx
      split at hx
      · cases hx; simp [h1]
      · cases hx
    · simp [hj, h1]
  · intro i v e
    unfold Params.setD at e
    rw [Option.map_eq_some_iff] at e
    obtain ⟨x, hx, rfl⟩ := e
    refine ⟨h1, fun j => ?_, h3⟩
    by_cases hj : j = i
    · subst hj
      unfold DblP.set at hx
      dsimp only at hx
      split at hx
      · cases hx; simp [h2]
      · cases hx
    · simp [hj, h2]
  · intro i v
    refine ⟨h1, h2, fun j => ?_⟩
    unfold Params.setS
    by_cases hj : j = i <;> simp [hj, h3]

/-- A number for a name, only used to compare names quickly. -/
def nameCode (s : String) : ℕ := s.toList.foldl (fun a c => a * 256 + c.toNat) 0

/-- The table without the summary of branch and bound, whose columns occur again later. -/
def baseTable (p : Params) (o : ParamOrder) : List (String × (RunData → Cell)) :=
  paramMeaning p o ++ (("INSTANCE", fun d => Cell.text d.wrap.inst) ::
  boundMeaning.map (fun m => (m.1, fun d => m.2 d.bound))
  ++ gapMeaning.map (fun m => (m.1, fun d => m.2 d.bound))
  ++ probMeaning.map (fun m => (m.1, fun d => m.2 d.orig))
  ++ postMeaning
  ++ disjMeaning.map (fun m => (m.1, fun d => m.2 d.disj))
  ++ cutMeaning ++ objMeaning ++ failMeaning ++ fullMeaning ++ timeMeaning ++ wrapMeaning)

theorem base_codes :
    (((baseTable Params.default ⟨IntId.all, DblId.all, StrId.all⟩).map (·.1)).map nameCode).Nodup := by
  decide +kernel

theorem base_nodup {p : Params} {o : ParamOrder} (hp : DefaultNames p) (ho : FullOrder o) :
    ((baseTable p o).map (·.1)).Nodup := by
  have h0 := List.Nodup.of_map _ base_codes
  refine (List.Perm.nodup_iff ?_).mp h0
  unfold baseTable
  simp only [List.map_append]
  refine List.Perm.append_right _ ?_
  have e : (paramMeaning p o).map (·.1) = (paramMeaning Params.default o).map (·.1) := by
    unfold paramMeaning
    simp only [List.map_append, List.map_map, Function.comp_def, hp.1, hp.2.1, hp.2.2]
    rfl
  rw [e]
  refine List.Perm.map _ ?_
  unfold paramMeaning
  exact ((ho.1.symm.map _).append (ho.2.1.symm.map _)).append (ho.2.2.symm.map _)

theorem summary_sub : ∀ m ∈ summaryMeaning, m ∈ fullMeaning := by
  intro m hm
  have hn : ("NODES", fun i : BBInfo => Val.int i.nodes) ∈ bbMeaning := by simp [bbMeaning]
  have ht : ("TIME", fun i : BBInfo => Val.num i.time) ∈ bbMeaning := by simp [bbMeaning]
  unfold fullMeaning
  refine List.mem_append_left _ (List.mem_append_left _ (List.mem_flatMap.mpr ?_))
  simp only [summaryMeaning, List.mem_cons, List.not_mem_nil, or_false] at hm
  rcases hm with rfl | rfl | rfl | rfl | rfl | rfl | rfl | rfl
  · exact ⟨_, hn, List.mem_cons_self⟩
  · exact ⟨_, hn, List.mem_cons_of_mem _ List.mem_cons_self⟩
  · exact ⟨_, hn, List.mem_cons_of_mem _ (List.mem_cons_of_mem _ List.mem_cons_self)⟩
  · exact ⟨_, hn, List.mem_cons_of_mem _ (List.mem_cons_of_mem _ (List.mem_cons_of_mem _ List.mem_cons_self))⟩
  · exact ⟨_, ht, List.mem_cons_self⟩
  · exact ⟨_, ht, List.mem_cons_of_mem _ List.mem_cons_self⟩
  · exact ⟨_, ht, List.mem_cons_of_mem _ (List.mem_cons_of_mem _ List.mem_cons_self)⟩
  · exact ⟨_, ht, List.mem_cons_of_mem _ (List.mem_cons_of_mem _ (List.mem_cons_of_mem _ List.mem_cons_self))⟩

theorem log_sub_base (p : Params) (o : ParamOrder) : ∀ m ∈ logTable p o, m ∈ baseTable p o := by
  intro m hm
  have hs := summary_sub m
  unfold logTable at hm
  unfold baseTable
  simp only [List.mem_append, List.mem_cons] at hm ⊢
  tauto

/-- A name says what stands below it, wherever it occurs: names that occur twice show the same value. -/
theorem names_unambiguous {p : Params} {o : ParamOrder} (hp : DefaultNames p) (ho : FullOrder o)
    {n : String} {f g : RunData → Cell} (hf : (n, f) ∈ logTable p o) (hg : (n, g) ∈ logTable p o) : f = g := by
  have hf := log_sub_base p o _ hf
  have hg := log_sub_base p o _ hg
  have := List.inj_on_of_nodup_map (base_nodup hp ho) hf hg rfl
  exact congrArg Prod.snd this

/-- Whoever reads the log by column name gets what the name says. -/
theorem field_by_name (p : Params) (hp : DefaultNames p) (d : RunData) (ho : FullOrder d.order)
    (ht : MainTimer d.timer) (row : List Cell) (h : logRow d = .ok row) :
    row.length = (headerNames p d.order).length ∧
    ∀ (n : String) (f : RunData → Cell), (n, f) ∈ logTable p d.order →
      ∀ i : ℕ, (headerNames p d.order)[i]? = some n → row[i]? = some (f d) := by
  obtain ⟨h1, h2⟩ := log_columns p d row ht h
  refine ⟨by rw [h1, h2, List.length_map, List.length_map], ?_⟩
  intro n f hf i hi
  rw [h1, List.getElem?_map, Option.map_eq_some_iff] at hi
  obtain ⟨⟨m, g⟩, hm, rfl⟩ := hi
  rw [h2, List.getElem?_map, hm]
  have := names_unambiguous hp ho hf (List.mem_of_getElem? hm)
  rw [this]
  rfl

/-! ## Examples -/

/-- A run: one row `x + y ≤ 3`, two binary variables, one cut, lower bound 1, optimum 2. -/
def exampleRun : RunData where
  wrap := ⟨"bm23", "1.0", "2.10", "1.17", "", "", "host", "cpu", 3, .SUCCESS, "Mon Jan  1 00:00:00 2024", 5⟩
  params := Params.default
  order := ⟨IntId.all, DblId.all, StrId.all⟩
  bbRuns := 1
  bound := { lp := 1, ip := 2, vpc := 3 / 2, numVpc := 1 }
  noCuts := { first := { nodes := 7 }, best := { nodes := 7 }, vec := [{ nodes := 7 }, { nodes := 9 }] }
  myCuts := { first := { nodes := 5 }, best := { nodes := 4 }, vec := [{ nodes := 5 }, { nodes := 4 }] }
  orig := ⟨[⟨-dblMax, 3, 2⟩], [⟨0, 1, true, true, 1 / 2⟩, ⟨0, 1, true, true, 1 / 4⟩]⟩
  post := ⟨[⟨-dblMax, 3, 2⟩, ⟨1, dblMax, 2⟩], [⟨0, 1, true, true, 1 / 2⟩, ⟨0, 1, true, true, 1⟩]⟩
  disj := {}
  gmics := {}
  vpcs := { numCuts := 1, rounds := 1, ofType := some fun _ => 0 }
  timer := (TimeStats.empty.run ((timeNames.map fun n => (TOp.register n 0, 0)) ++ [(.start "TOTAL_TIME", 5),
    (.stop "TOTAL_TIME", 12)])).getD TimeStats.empty

theorem exampleRun_timer : MainTimer exampleRun.timer := by
  have h : ∃ t, TimeStats.empty.run ((timeNames.map fun n => (TOp.register n 0, (0 : Int))) ++
      [(.start "TOTAL_TIME", 5), (.stop "TOTAL_TIME", 12)]) = some t := by
    rw [← Option.isSome_iff_exists]
    decide +kernel
  obtain ⟨t, ht⟩ := h
  refine ⟨0, [(.start "TOTAL_TIME", 5), (.stop "TOTAL_TIME", 12)], ?_, ?_⟩
  · intro x hx nm i
    simp only [List.mem_cons, List.not_mem_nil, or_false] at hx
    rcases hx with rfl | rfl <;> simp
  · unfold exampleRun
    simp only [ht, Option.getD_some]

/-- The hypotheses of `field_by_name` hold of a run that prints its line. -/
example : DefaultNames Params.default ∧ FullOrder exampleRun.order ∧ MainTimer exampleRun.timer ∧
    ∃ row, logRow exampleRun = .ok row :=
  ⟨default_names, ⟨List.Perm.refl _, List.Perm.refl _, List.Perm.refl _⟩, exampleRun_timer, by
    have h : (match logRow exampleRun with | .ok _ => true | _ => false) = true := by decide +kernel
    cases hr : logRow exampleRun with
    | ok row => exact ⟨row, rfl⟩
    | exit => rw [hr] at h; cases h
    | undef => rw [hr] at h; cases h⟩

end VPC
