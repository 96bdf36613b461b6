import Verif.Model.BBRepair
import Verif.Props.BBCover
import Verif.Props.EndToEndEx

/-!
# C152: the repair of a node taken for pruned
-/
namespace VPC

/-- The step that would have been recorded had the child been recognized. -/
def RStep.correct : RStep → BBStep
  | .plain e => e
  | .missed pick m _ _ => ⟨pick, .created m.node⟩

/-- The repair has what it needs: the branching object is one of Cbc's, nothing was recorded for the node, and the solver still has
the bounds of the node when the tree is examined. -/
def RStep.Fair : RStep → Prop
  | .plain _ => True
  | .missed _ m lo hi => m.node.osi = false ∧ m.pre = [] ∧ lo = m.node.lo ∧ hi = m.node.hi

/-- Nothing is changed if all nodes were recorded correctly: the numbers agree. -/
theorem repair_idle {P : Relax} {root : NewNode} {s : BB} (hinv : BBInv P root s) (choose known : Bool)
    (lo hi : List (Option ℚ)) : repair choose known lo hi s = .ok s := by
  unfold repair
  split
  · rfl
  · have h0 := hinv.stat0
    cases h : s.stats.getLast? with
    | none => rw [List.getLast?_eq_none_iff] at h; rw [h] at h0; simp at h0
    | some last =>
      dsimp only
      rw [List.getLast?_eq_getElem?] at h
      have hid := hinv.ids _ _ h
      have := lt_of_get h
      rw [if_pos (by rw [hid, ← hinv.len]; omega)]

theorem find_child {rest tail : List CNode} {c : CNode} {k : ℕ} (h : ∀ n ∈ rest, n.number < k) (hc : c.number = k) :
    (rest ++ [c] ++ tail).find? (fun n => n.number == k) = some c := by
  rw [List.append_assoc, List.find?_append]
  have : rest.find? (fun n => n.number == k) = none := by
    rw [List.find?_eq_none]
    intro n hn
    have := h n hn
    simp; omega
  rw [this]
  simp [hc]

/-- **C152.** The repair restores exactly the state that is reached when the child is recognized at once. -/
theorem repair_exact {P : Relax} {root : NewNode} {s : BB} (hinv : BBInv P root s) {pick : ℕ} {m : Missed}
    (hfin : FiniteWhere m.node.lo m.node.hi root.lo root.hi)
    (hosi : m.node.osi = false) (hpre : m.pre = []) {p : CNode} (hp : s.tree[pick]? = some p) :
    ∃ u, missStep s pick m = .ok u ∧
      repair false true m.node.lo m.node.hi u = bbStep s ⟨pick, .created m.node⟩ := by
  have hps := hinv.synced p (List.mem_of_getElem? hp)
  have hnum : ∀ n ∈ s.tree, n.number < s.count2 := by
    intro n hn
    obtain ⟨_, _, hl⟩ := (hinv.synced n hn).last
    have := lt_of_get hl; rwa [hinv.len] at this
  have hpn : p.number < s.count2 := hnum p (List.mem_of_getElem? hp)
  have hpf : p.first < s.cur.length := by
    obtain ⟨_, _, hl, _⟩ := hps.orig
    have := lt_of_get hl; rw [hinv.curLen]; rwa [hinv.len] at this
  have hpos : 0 < s.count2 := by omega
  have hpar : parentNo (midCreated s p m.node) p = parentNo s p := by
    unfold parentNo
    cases hk : p.parentFirst with
    | none => rfl
    | some k =>
      have := hps.par k hk
      simp only [midCreated]
      rw [List.getD_eq_getElem?_getD, List.getElem?_append_left (by rw [hinv.curLen]; exact this),
        ← List.getD_eq_getElem?_getD]
  have hrest : ∀ n ∈ s.tree.eraseIdx pick, n.number < s.count2 := fun n hn => hnum n (mem_eraseIdx_mem hn)
  have hlast : s.stats.getLast? = s.stats[s.count2 - 1]? := by rw [List.getLast?_eq_getElem?, hinv.len]
  obtain ⟨l, hl⟩ : ∃ l, s.stats[s.count2 - 1]? = some l :=
    ⟨_, List.getElem?_eq_getElem (by rw [hinv.len]; omega)⟩
  have hlid := hinv.ids _ _ hl
  rw [bbStep_created hinv (e := ⟨pick, .created m.node⟩) hp rfl, parentAgain_eq (midCreated_inv hinv hps hfin).1, hpar]
  unfold missStep
  simp only [hp]
  have hfound : ∀ tail, (s.tree.eraseIdx pick ++ [m.node.node s.count2 (some p.first)] ++ tail).find?
      (fun n => n.number == s.count2) = some (m.node.node s.count2 (some p.first)) := fun tail => find_child hrest rfl
  have hst : ∀ u : BB, u.oLo = s.oLo → u.oHi = s.oHi →
      repairedStat u (missedStat s p m) (m.node.node s.count2 (some p.first)) m.node.lo m.node.hi =
      nodeStat (m.node.node s.count2 (some p.first)) s.count2 s.count2 p.number
        (changedBounds m.node.lo m.node.hi s.oLo s.oHi) := by
    intro u h1 h2
    unfold repairedStat missedStat prunedStat nodeStat
    rw [hpre, h1, h2]
    rfl
  have hid : (missedStat s p m).id = s.count2 := rfl
  have ho : (m.node.node s.count2 (some p.first)).osi = false := hosi
  by_cases hb : p.branchIndex = 0
  · rw [if_pos hb, if_pos (by simp [CNode.branchesLeft, hb]), pushStat_ok hinv.ids (by simp [nodeStat, hinv.len])]
    refine ⟨_, rfl, ?_⟩
    have hf := hfound [{ p with branchIndex := p.branchIndex + 1, number := s.count2 + 1 }]
    unfold repair
    rw [if_neg (by simp)]
    simp only [List.getLast?_append, List.getLast?_singleton, Option.some_or]
    rw [if_neg (by simp [nodeStat])]
    simp only [hid, hf, ho, Bool.false_eq_true, if_false, Bool.not_true]
    simp only [hst]
    simp [nodeStat, midCreated, hb]
  · rw [if_neg hb, if_neg (by simp only [CNode.branchesLeft]; push_cast; omega)]
    refine ⟨_, rfl, ?_⟩
    have hf := hfound []
    simp only [List.append_nil] at hf
    unfold repair
    rw [if_neg (by simp)]
    simp only [hlast, hl]
    rw [if_neg (by omega)]
    simp only [List.getLast?_append, List.getLast?_singleton, Option.some_or, hid, hf, ho, Bool.false_eq_true, if_false,
      Bool.not_true]
    simp only [hst]
    rw [if_neg (by simp only [nodeStat]; omega)]
    simp [midCreated]

theorem rStep_correct {P : Relax} {root : NewNode} {s : BB} (hinv : BBInv P root s) {e : RStep} (hfair : e.Fair)
    (hfin : ∀ n, e.correct.out = .created n → FiniteWhere n.lo n.hi root.lo root.hi) :
    rStep false true s e = bbStep s e.correct := by
  cases e with
  | plain e =>
    simp only [rStep, RStep.correct]
    cases h : bbStep s e with
    | ok t =>
      simp only [Res.bind]
      exact repair_idle (bbStep_inv hinv hfin h) false true _ _
    | exit => rfl
    | undef => rfl
  | missed pick m lo hi =>
    obtain ⟨h1, h2, rfl, rfl⟩ := hfair
    simp only [rStep, RStep.correct]
    cases hp : s.tree[pick]? with
    | none =>
      unfold missStep bbStep
      simp only [hp]
      rfl
    | some p =>
      obtain ⟨u, hu, hr⟩ := repair_exact hinv (hfin m.node rfl) h1 h2 hp
      rw [hu]
      exact hr

theorem rRun_correct {P : Relax} {root : NewNode} {es : List RStep} {s : BB} (hinv : BBInv P root s)
    (hfair : ∀ e ∈ es, e.Fair)
    (hfin : ∀ e ∈ es, ∀ n, e.correct.out = .created n → FiniteWhere n.lo n.hi root.lo root.hi) :
    rRun false true s es = bbRun s (es.map RStep.correct) := by
  induction es generalizing s with
  | nil => rfl
  | cons e es ih =>
    simp only [rRun, List.map_cons, bbRun]
    rw [rStep_correct hinv (hfair e (by simp)) (hfin e (by simp))]
    cases h : bbStep s e.correct with
    | ok t =>
      exact ih (bbStep_inv hinv (hfin e (by simp)) h) (fun e he => hfair e (by simp [he])) fun e he => hfin e (by simp [he])
    | exit => rfl
    | undef => rfl

/-- **C152.** A history in which children were taken for pruned, with the repairs, records exactly what the same history records in
which they are recognized at once. -/
theorem repaired_history {P : Relax} {root : NewNode} {es : List RStep} (hfair : ∀ e ∈ es, e.Fair)
    (ht : OnlyTightens P root (es.map RStep.correct)) :
    rRun false true (bbInit P root) es = bbRun (bbInit P root) (es.map RStep.correct) :=
  rRun_correct (bbInv_init P root) hfair fun e he n hn => (ht.2 e.correct (List.mem_map.2 ⟨e, he, rfl⟩) n hn).finite

/-- **C152.** So the terms saved cover every point of the relaxation that is integral on the branching variables, except the points
that the solver itself discarded; the children taken for pruned are not among these. -/
theorem repaired_covers_partial {P : Relax} {root : NewNode} {es : List RStep} {s : BB}
    {nodes : List CNode} {intSol : List ℚ} {maxLeaf numLeaf : ℤ} {env : SaveEnv} {r : Bool × SaveSt}
    (hfair : ∀ e ∈ es, e.Fair) (ht : OnlyTightens P root (es.map RStep.correct))
    (h : rRun false true (bbInit P root) es = .ok s) (hperm : nodes.Perm s.tree)
    (hs : saveInformation P maxLeaf s nodes intSol numLeaf env = .ok r) (hstat : r.1 = false)
    {x : Vec} (hx : P.Feas x) (hint : IntegralOn root (es.map RStep.correct) x)
    (hlp : ∀ i j Q, env.lp i j Q = none → ¬ Q.Feas x) :
    (∃ t ∈ r.2.D.terms, InTerm P r.2.D t x) ∨ ¬ InBnds root.lo root.hi x ∨
      LostIn false (bbInit P root) (es.map RStep.correct) x :=
  bb_covers_partial ht (repaired_history hfair ht ▸ h) hperm hs hstat hx hint hlp

/-! ## Saving before the repair -/

theorem saveLoop_entries {P : Relax} {maxLeaf : ℤ} {stats : List NStat} {env : SaveEnv} {nodes : List CNode} {ind : ℕ}
    {st : Bool} {s : SaveSt} {r : Bool × SaveSt} (h : saveLoop P maxLeaf stats env ind nodes st s = .ok r)
    (hf : r.1 = false) : ∀ n ∈ nodes, stats[n.number]? ≠ none := by
  induction nodes generalizing ind st s with
  | nil => simp
  | cons nd rest ih =>
    unfold saveLoop at h
    split at h
    · simp only [Res.ok.injEq] at h; subst h; cases hf
    · obtain ⟨r1, h1, h⟩ := Res.bind_ok h
      intro n hn
      rcases List.mem_cons.1 hn with rfl | hn
      · intro h0
        unfold saveNode at h1
        rw [h0] at h1
        cases h1
      · exact ih h n hn

theorem keepActive_entries {P : Relax} {stats : List NStat} {env : SaveEnv} {nodes : List CNode} {ind : ℕ}
    {s r : SaveSt} (h : keepActive P stats env ind nodes s = .ok r) : ∀ n ∈ nodes, stats[n.number]? ≠ none := by
  induction nodes generalizing ind s with
  | nil => simp
  | cons nd rest ih =>
    unfold keepActive at h
    obtain ⟨r1, h1, h⟩ := Res.bind_ok h
    intro n hn
    rcases List.mem_cons.1 hn with rfl | hn
    · intro h0
      unfold keepNode at h1
      rw [h0] at h1
      cases h1
    · exact ih h n hn

/-- After the event that took the child for pruned a node of the tree has no entry. -/
theorem missed_without_entry {P : Relax} {root : NewNode} {s : BB} (hinv : BBInv P root s) {pick : ℕ} {m : Missed} {u : BB}
    (h : missStep s pick m = .ok u) : ∃ n ∈ u.tree, u.stats[n.number]? = none := by
  unfold missStep at h
  cases hp : s.tree[pick]? with
  | none => simp [hp] at h
  | some p =>
    simp only [hp] at h
    split at h
    · rw [pushStat_ok hinv.ids (by simp [nodeStat, hinv.len])] at h
      simp only [Res.bind, Res.ok.injEq] at h
      subst h
      refine ⟨_, List.mem_append_right _ (List.mem_singleton.2 rfl), ?_⟩
      rw [List.getElem?_eq_none (by simp [hinv.len])]
    · simp only [Res.ok.injEq] at h
      subst h
      refine ⟨_, List.mem_append_right _ (List.mem_singleton.2 rfl), ?_⟩
      rw [List.getElem?_eq_none (by simp [NewNode.node, hinv.len])]

/-- **C152, violated.** The disjunction is saved before the repair. If the limit is reached at the event after a child was taken for
pruned, the search never ends with a disjunction saved: the entries of a node are read outside of the vector (or the process is
ended before). -/
theorem save_before_repair {P : Relax} {root : NewNode} {s : BB} (hinv : BBInv P root s) {pick : ℕ} {m : Missed} {u : BB}
    (h : missStep s pick m = .ok u) {keep : Bool} {maxLeaf : ℤ} {nodes : List CNode} (hperm : nodes.Perm u.tree)
    {intSol : List ℚ} {timeUp : Bool} {env : SaveEnv} :
    ∀ n D, treeStatus P keep maxLeaf u nodes intSol timeUp env ≠ .ok (true, n, D) := by
  obtain ⟨nd, hnd, h0⟩ := missed_without_entry hinv h
  intro n D ht
  unfold treeStatus at ht
  dsimp only at ht
  split at ht
  · split at ht
    · obtain ⟨r, hr, ht⟩ := Res.bind_ok ht
      unfold saveFromStats at hr
      obtain ⟨r1, h1, -⟩ := Res.bind_ok hr
      exact keepActive_entries h1 nd (hperm.mem_iff.2 hnd) h0
    · obtain ⟨r, hr, ht⟩ := Res.bind_ok ht
      simp only [Res.ok.injEq, Prod.mk.injEq, Bool.not_eq_true'] at ht
      unfold saveInformation at hr
      obtain ⟨r1, h1, hr⟩ := Res.bind_ok hr
      simp only [Res.ok.injEq] at hr
      have hf : r1.1 = false := by
        split at hr
        · rw [← hr] at ht; simp at ht
        · rw [hr]; exact ht.1
      exact saveLoop_entries h1 hf nd (hperm.mem_iff.2 hnd) h0
  · simp at ht

/-! ## Examples -/

/-- The down child of the root (`x0 ≤ 2`), branching on `x1 = 1/2`, is taken for pruned. -/
def missedEx : Missed :=
  { obj := 3
    node := { var := 1, value := 1 / 2, firstUp := true, osi := false, prevLB := 0, prevUB := 5, obj := 2,
              lo := [some 0, some 0], hi := [some 2, some 4] } }

/-- The example of C05 with the first child taken for pruned. -/
def missedHist : List RStep := [.missed 0 missedEx missedEx.node.lo missedEx.node.hi, .plain ⟨0, .dropped 3⟩]

/-- Non-vacuity of `repaired_history`, `repaired_covers_partial`. -/
example : missedHist.map RStep.correct = bbHist ∧ (∀ e ∈ missedHist, e.Fair) ∧
    OnlyTightens bbP bbRoot (missedHist.map RStep.correct) ∧ rRun false true (bbInit bbP bbRoot) missedHist = .ok bbS := by
  refine ⟨rfl, ?_, bbHist_ok, by decide +kernel⟩
  intro e he
  simp only [missedHist, List.mem_cons, List.not_mem_nil, or_false] at he
  rcases he with rfl | rfl
  · exact ⟨rfl, rfl, rfl, rfl⟩
  · trivial

/-- The state after the child was taken for pruned. -/
def missedS : BB :=
  match missStep (bbInit bbP bbRoot) 0 missedEx with
  | .ok s => s
  | _ => bbInit bbP bbRoot

/-- Non-vacuity of `save_before_repair`: with the limit of three leaves the entries are read outside of the vector; recognized
at once, the child gives a disjunction. -/
example : missStep (bbInit bbP bbRoot) 0 missedEx = .ok missedS ∧
    treeStatus bbP false 3 missedS missedS.tree [] false bbEnv = .undef ∧
    treeStatus bbP true 3 missedS missedS.tree [] false bbEnv = .undef ∧
    ∃ t, bbStep (bbInit bbP bbRoot) ⟨0, .created missedEx.node⟩ = .ok t ∧
      ((treeStatus bbP false 3 t t.tree [] false bbEnv).okAnd fun r => r.1) = true := by
  refine ⟨by decide +kernel, by decide +kernel, by decide +kernel, _, rfl, by decide +kernel⟩

/-- **C152, violated.** Without the original object of the branching object the repair ends the process, although the entry of a node
recognized at once does not need it (src/branch/VPCEventHandler.cpp:80-91 takes the bounds of the solver). -/
theorem unknown_object_exits : repair false false missedEx.node.lo missedEx.node.hi missedS = .exit ∧
    ∃ t, bbStep (bbInit bbP bbRoot) ⟨0, .created missedEx.node⟩ = .ok t := ⟨by decide +kernel, _, rfl⟩

/-- With a branching method with a choose method nothing is repaired, and the next entry contradicts the count. -/
theorem choose_not_repaired : repair true true missedEx.node.lo missedEx.node.hi missedS = .ok missedS ∧
    bbStep missedS ⟨0, .created missedEx.node⟩ = .exit := ⟨by decide +kernel, by decide +kernel⟩

/-- The state after a repair with the bounds of the other branch (`x0 ≥ 3`). -/
def staleS : BB :=
  match repair false true [some 3, some 0] [some 5, some 4] missedS with
  | .ok s => s
  | _ => missedS

/-- **C152, violated.** If the solver no longer has the bounds of the node when the tree is examined, wrong bounds are recorded, and
the disjunction loses points of the node: here the point (0, 0), which is in the bounds of the root and of the node. -/
theorem stale_bounds_lose : repair false true [some 3, some 0] [some 5, some 4] missedS = .ok staleS ∧
    ∃ r, saveInformation bbP 3 staleS staleS.tree [] 3 bbEnv = .ok (false, r) ∧ bbP.Feas (fun _ => 0) ∧
      InBnds bbRoot.lo bbRoot.hi (fun _ => 0) ∧ InBnds missedEx.node.lo missedEx.node.hi (fun _ => 0) ∧
      ¬ ∃ t ∈ r.D.terms, InTerm bbP r.D t (fun _ => 0) := by
  refine ⟨by decide +kernel, ?_⟩
  obtain ⟨r, hr, hd⟩ := Res.okAnd_iff (by decide +kernel : (saveInformation bbP 3 staleS staleS.tree [] 3 bbEnv).okAnd
    (fun r => r.1 == false && r.2.D.terms.all fun t => t.changes.any fun c => c == ⟨0, 0, 3⟩) = true)
  simp only [Bool.and_eq_true, beq_iff_eq, List.all_eq_true, List.any_eq_true] at hd
  refine ⟨r.2, by rw [hr, ← hd.1], by decide +kernel, ?_, ?_, ?_⟩
  · refine ⟨fun i l h => ?_, fun i u h => ?_⟩ <;> match i with
      | 0 => simp [bbRoot] at h; subst h; norm_num [geLo, leHi]
      | 1 => simp [bbRoot] at h; subst h; norm_num [geLo, leHi]
      | (i + 2) => simp [bbRoot] at h
  · refine ⟨fun i l h => ?_, fun i u h => ?_⟩ <;> match i with
      | 0 => simp [missedEx] at h; subst h; norm_num [geLo, leHi]
      | 1 => simp [missedEx] at h; subst h; norm_num [geLo, leHi]
      | (i + 2) => simp [missedEx] at h
  · rintro ⟨t, ht, -, -, hc, -⟩
    obtain ⟨c, hcm, rfl⟩ := hd.2 t ht
    have := hc _ hcm
    simp [BChange.Sat] at this
    norm_num at this

end VPC
