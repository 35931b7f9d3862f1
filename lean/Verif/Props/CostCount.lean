import Verif.Model.Cost
import Verif.Examples.Toy
/-!
# C30, C31: accumulating costs and counting inliers
-/

set_option linter.unusedSectionVars false

namespace Verif
open FloatOps

/-! ### C30: exact arithmetic -/

/-- a user supplied cost: non-negative number of residuals, ratio between 0 and 1 -/
structure Cost.Sane (c : Cost ℝ ℝ) : Prop where
  num : 0 ≤ c.num
  lo : 0 ≤ c.inlier
  hi : c.inlier ≤ 1

/-- the ratio is a number of inliers divided by the number of residuals -/
def Cost.Counted (c : Cost ℝ ℝ) : Prop := ∃ k : Int, 0 ≤ k ∧ k ≤ c.num ∧ (c.num : ℝ) * c.inlier = k

/-- repeated use of `+=`, in any grouping; `res a sq n` is `a += r` for `n` residuals `r` of squared norm `sq` -/
inductive CostTree where
  | leaf (c : Cost ℝ ℝ)
  | node (a b : CostTree)
  | res (a : CostTree) (sq : ℝ) (n : Int)

noncomputable def CostTree.eval : CostTree → Res (Cost ℝ ℝ)
  | leaf c => .ok c
  | node a b => (a.eval).bind fun x => (b.eval).bind fun y => x.plusEq y
  | res a sq n => (a.eval).bind fun x => x.plusEqRes sq n

/-- the parts of a sum; residuals are all inliers -/
def CostTree.leaves : CostTree → List (Cost ℝ ℝ)
  | leaf c => [c]
  | node a b => a.leaves ++ b.leaves
  | res a sq n => a.leaves ++ [{ cost := sq, num := n, inlier := 1 }]

theorem i32_ok {z : Int} (h0 : 0 ≤ z) (h1 : z ≤ intMax) : i32 z = .ok z := by
  unfold i32; rw [if_pos ⟨by omega, h1⟩]

theorem toI32_real {x : ℝ} {k : Int} (h0 : 0 ≤ x) (hk : ⌊x⌋ = k) (h1 : k ≤ intMax) : toI32 x = .ok k := by
  have hk0 : 0 ≤ k := by rw [← hk]; exact Int.floor_nonneg.mpr h0
  unfold toI32 ToInt.trunc instToIntReal
  simp only [if_pos h0, hk]
  exact i32_ok hk0 h1

theorem numInliers_sane {c : Cost ℝ ℝ} (h : c.Sane) (hm : c.num ≤ intMax) :
    ∃ k : Int, c.numInliers = .ok k ∧ 0 ≤ k ∧ k ≤ c.num ∧ (c.Counted → (c.num : ℝ) * c.inlier = k) := by
  have hn : (0 : ℝ) ≤ c.num := by exact_mod_cast h.num
  have h0 : (0 : ℝ) ≤ c.num * c.inlier := mul_nonneg hn h.lo
  have h1 : (c.num : ℝ) * c.inlier ≤ c.num := by nlinarith [h.hi]
  have hk : ⌊(c.num : ℝ) * c.inlier⌋ ≤ c.num := by
    have := Int.floor_le_floor h1
    rwa [Int.floor_intCast] at this
  refine ⟨⌊(c.num : ℝ) * c.inlier⌋, toI32_real (x := c.num * c.inlier) h0 rfl (by omega), Int.floor_nonneg.mpr h0, hk, ?_⟩
  rintro ⟨k, -, -, e⟩
  rw [e, Int.floor_intCast]

theorem numOutliers_counted {c : Cost ℝ ℝ} (h : c.Sane) (hm : c.num ≤ intMax) {k : Int} (hk : (c.num : ℝ) * c.inlier = k)
    (hk1 : k ≤ c.num) (hk0 : 0 ≤ k) : c.numOutliers = .ok (c.num - k) := by
  have e : (c.num : ℝ) * (1 - c.inlier) = ((c.num - k : Int) : ℝ) := by push_cast; rw [mul_sub, mul_one, hk]
  unfold Cost.numOutliers
  refine toI32_real ?_ ?_ (by omega)
  · simp only [RealOps.mul_eq, RealOps.sub_eq, RealOps.ofInt_eq, Int.cast_one, e]
    exact_mod_cast (by omega : 0 ≤ c.num - k)
  · simp only [RealOps.mul_eq, RealOps.sub_eq, RealOps.ofInt_eq, Int.cast_one, e, Int.floor_intCast]

/-- one `+=` -/
theorem plusEq_exact {c d : Cost ℝ ℝ} (hc : c.Sane) (hd : d.Sane) (hm : c.num + d.num ≤ intMax) {kc kd : Int}
    (hkc : c.numInliers = .ok kc) (hkd : d.numInliers = .ok kd) :
    ∃ e, c.plusEq d = .ok e ∧ e.Sane ∧ e.cost = c.cost + d.cost ∧ e.num = c.num + d.num ∧ e.numInliers = .ok (kc + kd) ∧ e.Counted := by
  have h1 := hc.num
  have h2 := hd.num
  obtain ⟨kc', e1, a1, a2, -⟩ := numInliers_sane hc (by omega)
  obtain ⟨kd', e2, b1, b2, -⟩ := numInliers_sane hd (by omega)
  rw [hkc] at e1; rw [hkd] at e2
  injection e1 with e1; injection e2 with e2
  subst e1; subst e2
  have hnum : (Cost.numInliers ({ c with cost := add c.cost d.cost } : Cost ℝ ℝ)) = .ok kc := hkc
  by_cases hs : c.num + d.num > 0
  · let e : Cost ℝ ℝ := { c with cost := c.cost + d.cost, inlier := ((kc + kd : Int) : ℝ) / ((c.num + d.num : Int) : ℝ), num := c.num + d.num }
    have hadd : (Cost.addResiduals ({ c with cost := add c.cost d.cost } : Cost ℝ ℝ) d.num kd) = .ok e := by
      unfold Cost.addResiduals
      rw [i32_ok (by omega) hm, Res.bind_ok, if_pos hs, hnum, Res.bind_ok, i32_ok (by omega) (by omega), Res.bind_ok]
      rfl
    have hpos : (0 : ℝ) < ((c.num + d.num : Int) : ℝ) := by exact_mod_cast hs
    have hsane : e.Sane := by
      refine ⟨by show 0 ≤ c.num + d.num; omega, ?_, ?_⟩
      · exact div_nonneg (by exact_mod_cast (by omega : 0 ≤ kc + kd)) hpos.le
      · show _ / _ ≤ (1 : ℝ)
        rw [div_le_one hpos]
        exact_mod_cast (by omega : kc + kd ≤ c.num + d.num)
    have hval : ((c.num + d.num : Int) : ℝ) * e.inlier = ((kc + kd : Int) : ℝ) := mul_div_cancel₀ _ hpos.ne'
    have hin : e.numInliers = .ok (kc + kd) := by
      obtain ⟨k, h3, -, -, h6⟩ := numInliers_sane hsane (show c.num + d.num ≤ intMax from hm)
      rw [h3]
      have := h6 ⟨kc + kd, by omega, by show kc + kd ≤ c.num + d.num; omega, hval⟩
      have h7 : ((kc + kd : Int) : ℝ) = k := hval.symm.trans this
      congr 1
      exact_mod_cast h7.symm
    refine ⟨if d.log.isEmpty then e else { e with log := e.log ++ " " ++ d.log }, ?_, ?_⟩
    · unfold Cost.plusEq
      rw [hkd, Res.bind_ok, hadd, Res.bind_ok]
    · split
      · exact ⟨hsane, rfl, rfl, hin, ⟨_, by omega, by show kc + kd ≤ c.num + d.num; omega, hval⟩⟩
      · exact ⟨⟨hsane.num, hsane.lo, hsane.hi⟩, rfl, rfl, hin, ⟨_, by omega, by show kc + kd ≤ c.num + d.num; omega, hval⟩⟩
  · let e : Cost ℝ ℝ := { c with cost := c.cost + d.cost, num := c.num + d.num }
    have hadd : (Cost.addResiduals ({ c with cost := add c.cost d.cost } : Cost ℝ ℝ) d.num kd) = .ok e := by
      unfold Cost.addResiduals
      rw [i32_ok (by omega) hm, Res.bind_ok, if_neg hs]
      rfl
    have hsane : e.Sane := ⟨by show 0 ≤ c.num + d.num; omega, hc.lo, hc.hi⟩
    have hz : c.num + d.num = 0 := by omega
    have hk : kc + kd = 0 := by omega
    have hval : ((c.num + d.num : Int) : ℝ) * e.inlier = ((kc + kd : Int) : ℝ) := by rw [hz, hk]; simp
    have hin : e.numInliers = .ok (kc + kd) := by
      obtain ⟨k, h3, h4, h5, -⟩ := numInliers_sane hsane (show c.num + d.num ≤ intMax from hm)
      rw [h3]
      have h5' : k ≤ c.num + d.num := h5
      congr 1
      omega
    refine ⟨if d.log.isEmpty then e else { e with log := e.log ++ " " ++ d.log }, ?_, ?_⟩
    · unfold Cost.plusEq
      rw [hkd, Res.bind_ok, hadd, Res.bind_ok]
    · split
      · exact ⟨hsane, rfl, rfl, hin, ⟨_, by omega, by show kc + kd ≤ c.num + d.num; omega, hval⟩⟩
      · exact ⟨⟨hsane.num, hsane.lo, hsane.hi⟩, rfl, rfl, hin, ⟨_, by omega, by show kc + kd ≤ c.num + d.num; omega, hval⟩⟩

/-- `+=` of `n` residuals is `+=` of a cost of `n` inliers -/
theorem plusEqRes_eq (c : Cost ℝ ℝ) (sq : ℝ) {n : Int} (h0 : 0 ≤ n) (h1 : n ≤ intMax) :
    c.plusEqRes sq n = c.plusEq { cost := sq, num := n, inlier := 1 } := by
  have hk : Cost.numInliers ({ cost := sq, num := n, inlier := 1 } : Cost ℝ ℝ) = .ok n := by
    refine toI32_real (x := (n : ℝ) * 1) (by rw [mul_one]; exact_mod_cast h0) ?_ h1
    rw [mul_one, Int.floor_intCast]
  unfold Cost.plusEq Cost.plusEqRes
  rw [hk, Res.bind_ok]
  cases Cost.addResiduals ({ c with cost := add c.cost sq } : Cost ℝ ℝ) n n <;> rfl

theorem num_nonneg_sum {l : List (Cost ℝ ℝ)} (h : ∀ c ∈ l, c.Sane) : 0 ≤ (l.map (·.num)).sum := by
  apply List.sum_nonneg
  intro x hx
  obtain ⟨c, hc, rfl⟩ := List.mem_map.mp hx
  exact (h c hc).num

theorem num_le_sum {l : List (Cost ℝ ℝ)} (h : ∀ c ∈ l, c.Sane) {c : Cost ℝ ℝ} (hc : c ∈ l) : c.num ≤ (l.map (·.num)).sum := by
  induction l with
  | nil => cases hc
  | cons d l ih =>
    have h1 := num_nonneg_sum (l := l) (fun c hc => h c (List.mem_cons_of_mem _ hc))
    simp only [List.map_cons, List.sum_cons]
    rcases List.mem_cons.mp hc with rfl | hc
    · omega
    · have := ih (fun c hc => h c (List.mem_cons_of_mem _ hc)) hc
      have := (h d List.mem_cons_self).num
      omega

/-- **C30**: accumulating any costs (number of residuals not negative and in total within `int`, ratios between 0 and 1)
with `+=`, in any grouping: there is no undefined behaviour, the result has the sum of the costs, of
the numbers of residuals and of the numbers of inliers. -/
theorem C30_accumulate (t : CostTree) (h : ∀ c ∈ t.leaves, c.Sane) (hm : (t.leaves.map (·.num)).sum ≤ intMax)
    (k : Cost ℝ ℝ → Int) (hk : ∀ c ∈ t.leaves, c.numInliers = .ok (k c)) :
    ∃ e, t.eval = .ok e ∧ e.Sane ∧ e.cost = (t.leaves.map (·.cost)).sum ∧ e.num = (t.leaves.map (·.num)).sum ∧
      e.numInliers = .ok (t.leaves.map k).sum ∧ ((∀ c ∈ t.leaves, c.Counted) → e.Counted) := by
  induction t with
  | leaf c =>
    refine ⟨c, rfl, h c (by simp [CostTree.leaves]), by simp [CostTree.leaves], by simp [CostTree.leaves], ?_, fun h => h c (by simp [CostTree.leaves])⟩
    rw [hk c (by simp [CostTree.leaves])]; simp [CostTree.leaves]
  | node a b iha ihb =>
    have ha : ∀ c ∈ a.leaves, c ∈ (CostTree.node a b).leaves := fun c hc => by simp [CostTree.leaves, hc]
    have hb : ∀ c ∈ b.leaves, c ∈ (CostTree.node a b).leaves := fun c hc => by simp [CostTree.leaves, hc]
    have na := num_nonneg_sum (fun c hc => h c (ha c hc))
    have nb := num_nonneg_sum (fun c hc => h c (hb c hc))
    simp only [CostTree.leaves, List.map_append, List.sum_append] at hm
    obtain ⟨x, x1, x2, x3, x4, x5, -⟩ := iha (fun c hc => h c (ha c hc)) (by omega) (fun c hc => hk c (ha c hc))
    obtain ⟨y, y1, y2, y3, y4, y5, -⟩ := ihb (fun c hc => h c (hb c hc)) (by omega) (fun c hc => hk c (hb c hc))
    obtain ⟨e, e1, e2, e3, e4, e5, e6⟩ := plusEq_exact x2 y2 (by omega) x5 y5
    refine ⟨e, ?_, e2, ?_, ?_, ?_, fun _ => e6⟩
    · simp only [CostTree.eval, x1, y1, Res.bind_ok]; exact e1
    · simp only [CostTree.leaves, List.map_append, List.sum_append]; rw [e3, x3, y3]
    · simp only [CostTree.leaves, List.map_append, List.sum_append]; rw [e4, x4, y4]
    · simp only [CostTree.leaves, List.map_append, List.sum_append]; exact e5
  | res a sq n iha =>
    have ha : ∀ c ∈ a.leaves, c ∈ (CostTree.res a sq n).leaves := fun c hc => by simp [CostTree.leaves, hc]
    have hb : ({ cost := sq, num := n, inlier := 1 } : Cost ℝ ℝ) ∈ (CostTree.res a sq n).leaves := by simp [CostTree.leaves]
    have na := num_nonneg_sum (fun c hc => h c (ha c hc))
    have nb : 0 ≤ n := (h _ hb).num
    simp only [CostTree.leaves, List.map_append, List.sum_append, List.map_cons, List.map_nil, List.sum_cons, List.sum_nil, add_zero] at hm ⊢
    obtain ⟨x, x1, x2, x3, x4, x5, -⟩ := iha (fun c hc => h c (ha c hc)) (by omega) (fun c hc => hk c (ha c hc))
    obtain ⟨e, e1, e2, e3, e4, e5, e6⟩ := plusEq_exact x2 (h _ hb) (by show x.num + n ≤ intMax; omega) x5 (hk _ hb)
    refine ⟨e, ?_, e2, ?_, ?_, e5, fun _ => e6⟩
    · simp only [CostTree.eval, x1, Res.bind_ok]
      rw [plusEqRes_eq x sq nb (by omega)]; exact e1
    · rw [e3, x3]
    · rw [e4, x4]

theorem addResiduals_log {c e : Cost ℝ ℝ} {n k : Int} (h : c.addResiduals n k = .ok e) : e.log = c.log := by
  unfold Cost.addResiduals at h
  obtain ⟨s, -, h⟩ := Res.bind_eq_ok.mp h
  split at h
  · obtain ⟨i, -, h⟩ := Res.bind_eq_ok.mp h
    obtain ⟨t, -, h⟩ := Res.bind_eq_ok.mp h
    injection h with h; rw [← h]
  · injection h with h; rw [← h]

/-- **C30**, messages: the message of every part can be found in the message of the sum. -/
theorem C30_messages (t : CostTree) {e : Cost ℝ ℝ} (h : t.eval = .ok e) :
    ∀ c ∈ t.leaves, c.log.toList <:+: e.log.toList := by
  induction t generalizing e with
  | leaf c =>
    intro d hd
    simp only [CostTree.leaves, List.mem_singleton] at hd
    injection h with h
    rw [hd, h]
  | node a b iha ihb =>
    obtain ⟨x, hx, h⟩ := Res.bind_eq_ok.mp h
    obtain ⟨y, hy, h⟩ := Res.bind_eq_ok.mp h
    obtain ⟨k, -, h⟩ := Res.bind_eq_ok.mp h
    obtain ⟨c1, hc1, h⟩ := Res.bind_eq_ok.mp h
    have hl := addResiduals_log hc1
    injection h with h
    have h1 : x.log.toList <:+: e.log.toList := by
      rw [← h]
      split
      · rw [hl]
      · show x.log.toList <:+: (c1.log ++ " " ++ y.log).toList
        rw [hl, String.toList_append, String.toList_append, List.append_assoc]
        exact (List.prefix_append _ _).isInfix
    have h2 : y.log.toList <:+: e.log.toList := by
      rw [← h]
      split
      · rename_i he
        have : y.log = "" := String.isEmpty_iff.mp he
        rw [this]
        exact List.nil_infix
      · show y.log.toList <:+: (c1.log ++ " " ++ y.log).toList
        rw [String.toList_append]
        exact (List.suffix_append _ _).isInfix
    intro d hd
    rcases List.mem_append.mp hd with hd | hd
    · exact (iha hx d hd).trans h1
    · exact (ihb hy d hd).trans h2
  | res a sq n iha =>
    obtain ⟨x, hx, h⟩ := Res.bind_eq_ok.mp h
    have hl := addResiduals_log h
    intro d hd
    rcases List.mem_append.mp hd with hd | hd
    · rw [hl]; exact iha hx d hd
    · rw [List.mem_singleton] at hd
      rw [hd]; exact List.nil_infix

/-- **C30** (partial): the numbers of outliers add up as well, and inliers and outliers together are all residuals, if
the ratio of every part is a number of inliers divided by its number of residuals.
Missing: a ratio given by the user that is not of this form, see `C30_fractional`. -/
theorem C30_outliers_partial (t : CostTree) (h : ∀ c ∈ t.leaves, c.Sane) (hc : ∀ c ∈ t.leaves, c.Counted)
    (hm : (t.leaves.map (·.num)).sum ≤ intMax) :
    ∃ e i j, t.eval = .ok e ∧ e.numInliers = .ok i ∧ e.numOutliers = .ok j ∧ i + j = e.num ∧
      ∀ k' : Cost ℝ ℝ → Int, (∀ c ∈ t.leaves, c.numOutliers = .ok (k' c)) → j = (t.leaves.map k').sum := by
  have hex : ∀ c ∈ t.leaves, ∃ k : Int, c.numInliers = .ok k ∧ 0 ≤ k ∧ k ≤ c.num ∧ (c.Counted → (c.num : ℝ) * c.inlier = k) :=
    fun c hcm => numInliers_sane (h c hcm) ((num_le_sum h hcm).trans hm)
  classical
  let k : Cost ℝ ℝ → Int := fun c => if hcm : c ∈ t.leaves then (hex c hcm).choose else 0
  have hk : ∀ c (hcm : c ∈ t.leaves), c.numInliers = .ok (k c) ∧ 0 ≤ k c ∧ k c ≤ c.num ∧ (c.Counted → (c.num : ℝ) * c.inlier = k c) := by
    intro c hcm
    have := (hex c hcm).choose_spec
    simp only [k, dif_pos hcm]
    exact this
  obtain ⟨e, e1, e2, -, e4, e5, e6⟩ := C30_accumulate t h hm k (fun c hcm => (hk c hcm).1)
  have hme : e.num ≤ intMax := by rw [e4]; exact hm
  obtain ⟨k', f1, f2, f3, f4⟩ := numInliers_sane e2 hme
  rw [e5] at f1
  injection f1 with f1
  rw [← f1] at f2 f3 f4
  have hout := numOutliers_counted e2 hme (f4 (e6 hc)) f3 f2
  refine ⟨e, _, _, e1, e5, hout, by omega, fun k' hk' => ?_⟩
  rw [e4]
  have hall : ∀ c ∈ t.leaves, k' c = c.num - k c := by
    intro c hcm
    obtain ⟨a1, a2, a3, a4⟩ := hk c hcm
    have := numOutliers_counted (h c hcm) ((num_le_sum h hcm).trans hm) (a4 (hc c hcm)) a3 a2
    rw [hk' c hcm] at this
    injection this
  rw [List.map_congr_left hall]
  have : ∀ l : List (Cost ℝ ℝ), (l.map (·.num)).sum - (l.map k).sum = (l.map fun c => c.num - k c).sum := by
    intro l
    induction l with
    | nil => rfl
    | cons c l ih => simp only [List.map_cons, List.sum_cons]; rw [← ih]; ring
  exact this _

/-- **C30**, order: accumulating the same costs in another order or grouping gives the same cost, number of
residuals and number of inliers. -/
theorem C30_order (t u : CostTree) (hp : t.leaves.Perm u.leaves) (h : ∀ c ∈ t.leaves, c.Sane) (hm : (t.leaves.map (·.num)).sum ≤ intMax) :
    ∃ e f i, t.eval = .ok e ∧ u.eval = .ok f ∧ e.cost = f.cost ∧ e.num = f.num ∧ e.numInliers = .ok i ∧ f.numInliers = .ok i := by
  have hex : ∀ c ∈ t.leaves, ∃ k : Int, c.numInliers = .ok k := fun c hcm => by
    obtain ⟨k, hk, -⟩ := numInliers_sane (h c hcm) ((num_le_sum h hcm).trans hm)
    exact ⟨k, hk⟩
  classical
  let k : Cost ℝ ℝ → Int := fun c => if hcm : c ∈ t.leaves then (hex c hcm).choose else 0
  have hk : ∀ c ∈ t.leaves, c.numInliers = .ok (k c) := by
    intro c hcm
    simp only [k, dif_pos hcm]
    exact (hex c hcm).choose_spec
  have hm' : (u.leaves.map (·.num)).sum ≤ intMax := by rw [← (hp.map _).sum_eq]; exact hm
  obtain ⟨e, e1, -, e3, e4, e5, -⟩ := C30_accumulate t h hm k hk
  obtain ⟨f, f1, -, f3, f4, f5, -⟩ := C30_accumulate u (fun c hc => h c (hp.mem_iff.mpr hc)) hm' k (fun c hc => hk c (hp.mem_iff.mpr hc))
  refine ⟨e, f, _, e1, f1, ?_, ?_, e5, ?_⟩
  · rw [e3, f3, (hp.map _).sum_eq]
  · rw [e4, f4, (hp.map _).sum_eq]
  · rw [f5, (hp.map _).sum_eq]

/-- **C30 is violated** for a ratio that is no count: of 3 residuals with ratio 1/2, one is an inlier, one an
outlier. -/
theorem C30_fractional :
    let c : Cost ℝ ℝ := { cost := 1, num := 3, inlier := 1 / 2 }
    c.Sane ∧ c.numInliers = .ok 1 ∧ c.numOutliers = .ok 1 := by
  refine ⟨⟨by decide, by norm_num, by norm_num⟩, ?_, ?_⟩
  · refine toI32_real (x := ((3 : Int) : ℝ) * (1 / 2)) (by norm_num) ?_ (by decide)
    norm_num
  · refine toI32_real (x := ((3 : Int) : ℝ) * (((1 : Int) : ℝ) - 1 / 2)) (by norm_num) ?_ (by decide)
    norm_num

/-- costs meeting the hypotheses, in two different groupings -/
example : let a : Cost ℝ ℝ := { cost := 1, num := 3, inlier := 2 / 3 }
    let b : Cost ℝ ℝ := { cost := 5, num := 2, inlier := 0 }
    let c : Cost ℝ ℝ := { cost := 2, num := 1, inlier := 1 }
    (∀ x ∈ [a, b, c], x.Sane ∧ x.Counted) ∧
    (CostTree.node (.leaf a) (.node (.leaf b) (.leaf c))).leaves.Perm (CostTree.node (.node (.leaf c) (.leaf a)) (.leaf b)).leaves := by
  intro a b c
  refine ⟨?_, ?_⟩
  · intro x hx
    simp only [List.mem_cons, List.not_mem_nil, or_false] at hx
    rcases hx with rfl | rfl | rfl
    · exact ⟨⟨by decide, by norm_num [a], by norm_num [a]⟩, 2, by decide, by decide, by norm_num [a]⟩
    · exact ⟨⟨by decide, by norm_num [b], by norm_num [b]⟩, 0, by decide, by decide, by norm_num [b]⟩
    · exact ⟨⟨by decide, by norm_num [c], by norm_num [c]⟩, 1, by decide, by decide, by norm_num [c]⟩
  · show [a, b, c].Perm [c, a, b]
    exact (List.perm_append_comm (l₁ := [a, b]) (l₂ := [c]))

/-- `+=` of residuals and a message -/
example : ((CostTree.node (.res (.leaf { cost := 1, num := 1, inlier := 1, log := "a" }) 4 2)
    (.leaf { cost := 2, num := 1, inlier := 0, log := "b" })).eval).bind (fun e => .ok e.log) = .ok "a b" := by
  have h1 : Cost.numInliers ({ cost := 1 + 4, num := 1, inlier := 1, log := "a" } : Cost ℝ ℝ) = .ok 1 :=
    toI32_real (x := ((1 : Int) : ℝ) * 1) (by norm_num) (by norm_num) (by decide)
  have h2 : Cost.numInliers ({ cost := 2, num := 1, inlier := 0, log := "b" } : Cost ℝ ℝ) = .ok 0 :=
    toI32_real (x := ((1 : Int) : ℝ) * 0) (by norm_num) (by norm_num) (by decide)
  have h3 : Cost.numInliers ({ cost := 1 + 4 + 2, num := 3, inlier := ((3 : Int) : ℝ) / ((3 : Int) : ℝ), log := "a" } : Cost ℝ ℝ) = .ok 3 :=
    toI32_real (x := ((3 : Int) : ℝ) * (((3 : Int) : ℝ) / ((3 : Int) : ℝ))) (by norm_num) (by norm_num) (by decide)
  have e1 : (Cost.plusEqRes ({ cost := 1, num := 1, inlier := 1, log := "a" } : Cost ℝ ℝ) 4 2) =
      .ok { cost := 1 + 4, num := 3, inlier := ((3 : Int) : ℝ) / ((3 : Int) : ℝ), log := "a" } := by
    unfold Cost.plusEqRes Cost.addResiduals
    simp only [RealOps.add_eq, h1]
    rfl
  simp only [CostTree.eval, Res.bind_ok, e1, Cost.plusEq, h2, RealOps.add_eq, Cost.addResiduals, h3]
  rfl

/-! ### C31: single precision -/

/-- `float` -/
abbrev F32 := Fl Fmt.binary32

/-- rounding a number below 1 to single precision -/
theorem rnd32_near {q : ℚ} (h0 : 0 ≤ q) (h1 : q < 1) : |rndBin 24 (-149) q - q| ≤ 1 / 2 ^ 25 := by
  rcases h0.eq_or_lt with rfl | hq
  · rw [rndBin_zero]; norm_num
  unfold rndBin
  set e := ulpExp 24 (-149) q with he
  have hlog : Int.log 2 q < 0 := by
    by_contra hc
    have h2 := Int.zpow_log_le_self (b := 2) (by norm_num) hq
    have h3 : (1 : ℚ) ≤ ((2 : ℕ) : ℚ) ^ Int.log 2 q := one_le_zpow₀ (by norm_num) (by omega)
    linarith
  have hle : e ≤ -24 := by
    rw [he]; unfold ulpExp; rw [abs_of_pos hq]
    apply max_le (by norm_num)
    push_cast
    omega
  have hp : (2 : ℚ) ^ e ≤ 2 ^ (-24 : ℤ) := zpow_le_zpow_right₀ (by norm_num) hle
  have hpos := two_zpow_pos e
  have e1 : (rne (q / 2 ^ e) : ℚ) * 2 ^ e - q = ((rne (q / 2 ^ e) : ℚ) - q / 2 ^ e) * 2 ^ e := by
    rw [sub_mul, div_mul_cancel₀ _ hpos.ne']
  rw [e1, abs_mul, abs_of_pos hpos]
  have h4 := rne_near (q / 2 ^ e)
  calc _ ≤ 1 / 2 * (2 : ℚ) ^ (-24 : ℤ) := mul_le_mul h4 hp hpos.le (by norm_num)
    _ ≤ _ := by norm_num

theorem grid32_int {z : Int} (h : |z| ≤ 2 ^ 24) : GridBin 24 (-149) z := by
  rcases h.lt_or_eq with h | h
  · exact ⟨z, 0, h, by norm_num, by simp⟩
  · rcases abs_eq (by norm_num) |>.mp h with h | h
    · exact ⟨1, 24, by norm_num, by norm_num, by rw [h]; norm_num⟩
    · exact ⟨-1, 24, by norm_num, by norm_num, by rw [h]; norm_num⟩

theorem grid32_half {z : Int} (h : |z| < 2 ^ 23) : GridBin 24 (-149) (z + 1 / 2) := by
  refine ⟨2 * z + 1, -1, ?_, by norm_num, by push_cast; norm_num; ring⟩
  rw [abs_lt] at h ⊢
  omega

/-- an operation whose exact result is not too large rounds its result -/
theorem mk32 {q : ℚ} (h : |q| ≤ 2 ^ 24) : ∃ g, (Fl.mk q : F32) = .fin (rndBin 24 (-149) q) g := by
  rw [abs_le] at h
  have g : GridBin 24 (-149) (2 ^ 24 : ℚ) := by
    have := grid32_int (z := 2 ^ 24) (by norm_num)
    exact_mod_cast this
  have g' : GridBin 24 (-149) (-2 ^ 24 : ℚ) := gridBin_neg g
  have h1 := rndBin_mono (p := 24) (emin := -149) (by norm_num) h.1
  have h2 := rndBin_mono (p := 24) (emin := -149) (by norm_num) h.2
  rw [rndBin_id g'] at h1
  rw [rndBin_id g] at h2
  have hm : |rndBin 24 (-149) q| ≤ Fmt.binary32.max := by
    refine (abs_le.mpr ⟨h1, h2⟩).trans ?_
    show (2 ^ 24 : ℚ) ≤ ((2 ^ 24 - 1 : ℤ) : ℚ) * 2 ^ (-(-149 : ℤ) - 2 * ((24 : ℕ) : ℤ) + 3)
    norm_num
  refine ⟨⟨Fmt.binary32.rnd_grid q, hm⟩, ?_⟩
  show Fl.ofGrid (Fmt.binary32.rnd q) _ = _
  unfold Fl.ofGrid
  exact dif_pos hm

theorem fin_congr {f : Fmt} {q r : ℚ} (h : q = r) (g : f.Grid q ∧ |q| ≤ f.max) : (Fl.fin q g : Fl f) = .fin r (h ▸ g) := by
  subst h; rfl

theorem ofInt32 {z : Int} (h : |z| ≤ 2 ^ 24) : ∃ g, (ofInt z : F32) = .fin (z : ℚ) g := by
  have hq : |(z : ℚ)| ≤ 2 ^ 24 := by exact_mod_cast h
  obtain ⟨g, hg⟩ := mk32 hq
  refine ⟨(rndBin_id (grid32_int h)) ▸ g, ?_⟩
  show (Fl.mk (z : ℚ) : F32) = _
  rw [hg]
  exact fin_congr (rndBin_id (grid32_int h)) g

/-- `(int)(n * r)` for a ratio `r` close to `k / n` -/
theorem count32 {n k : Int} (hk0 : 0 ≤ k) (hkn : k ≤ n) (hn1 : n ≤ 2 ^ 23) {r : ℚ} (g) (hr0 : 0 ≤ r) (hr1 : r ≤ 1)
    (h : |n * r - k| ≤ 1 / 2) :
    ∃ m, toI32 (mul (ofInt n) (.fin r g) : F32) = .ok m ∧ k - 1 ≤ m ∧ m ≤ k ∧ (n * r = k → m = k) := by
  have hn : |n| ≤ 2 ^ 24 := by rw [abs_le]; omega
  obtain ⟨g1, e1⟩ := ofInt32 hn
  have hnq : (0 : ℚ) ≤ n := by exact_mod_cast (by omega : 0 ≤ n)
  have hn2 : (n : ℚ) ≤ 2 ^ 23 := by exact_mod_cast hn1
  have hk2 : (k : ℚ) ≤ n := by exact_mod_cast hkn
  have hpr : (0 : ℚ) ≤ n * r := mul_nonneg hnq hr0
  have hpr1 : (n : ℚ) * r ≤ n := mul_le_of_le_one_right hnq hr1
  have hpq : |(n : ℚ) * r| ≤ 2 ^ 24 := by rw [abs_of_nonneg hpr]; linarith
  obtain ⟨g2, e2⟩ := mk32 hpq
  have e3 : (mul (ofInt n) (.fin r g) : F32) = .fin (rndBin 24 (-149) (n * r)) g2 := by rw [e1]; exact e2
  set y := rndBin 24 (-149) ((n : ℚ) * r) with hy
  have hy0 : 0 ≤ y := rndBin_nonneg hpr
  have hyn : y ≤ n := by
    have := rndBin_mono (p := 24) (emin := -149) (by norm_num) hpr1
    rwa [rndBin_id (grid32_int hn)] at this
  rw [abs_le] at h
  have hlo : (k : ℚ) - 1 ≤ y := by
    have g3 : GridBin 24 (-149) ((k - 1 : Int) : ℚ) := grid32_int (by rw [abs_le]; omega)
    have h2 := rndBin_mono (p := 24) (emin := -149) (q := ((k - 1 : Int) : ℚ)) (r := n * r) (by norm_num) (by push_cast; linarith)
    rw [rndBin_id g3] at h2
    push_cast at h2
    exact h2
  have hhi : y < k + 1 := by
    by_cases hk : k < 2 ^ 23
    · have g3 : GridBin 24 (-149) ((k : ℚ) + 1 / 2) := grid32_half (by rw [abs_lt]; omega)
      have h2 := rndBin_mono (p := 24) (emin := -149) (q := n * r) (r := (k : ℚ) + 1 / 2) (by norm_num) (by linarith)
      rw [rndBin_id g3] at h2
      linarith
    · have : (n : ℚ) = k := by exact_mod_cast (by omega : n = k)
      linarith
  have hfl : truncRat y = ⌊y⌋ := if_pos hy0
  have hf1 : ⌊y⌋ ≤ k := by
    have : ⌊y⌋ < k + 1 := Int.floor_lt.mpr (by push_cast; exact hhi)
    omega
  have hf2 : k - 1 ≤ ⌊y⌋ := Int.le_floor.mpr (by push_cast; exact hlo)
  have hf0 : 0 ≤ ⌊y⌋ := Int.floor_nonneg.mpr hy0
  refine ⟨⌊y⌋, ?_, hf2, hf1, ?_⟩
  · rw [e3]
    show (i32 (truncRat y)) = _
    rw [hfl]
    exact i32_ok hf0 (by have : (intMax : Int) = 2147483647 := rfl
                         omega)
  · intro hex
    have hky : y = k := by rw [hy, hex, rndBin_id (grid32_int (by rw [abs_le]; omega))]
    rw [hky, Int.floor_intCast]

/-- the ratio computed from the counts -/
theorem ratio32 {n k : Int} (hk0 : 0 ≤ k) (hkn : k ≤ n) (hn0 : 0 < n) (hn1 : n ≤ 2 ^ 23) :
    ∃ g, (div (ofInt k) (ofInt n) : F32) = .fin (rndBin 24 (-149) ((k : ℚ) / n)) g := by
  obtain ⟨g1, e1⟩ := ofInt32 (z := n) (by rw [abs_le]; omega)
  obtain ⟨g2, e2⟩ := ofInt32 (z := k) (by rw [abs_le]; omega)
  have hnq : (0 : ℚ) < n := by exact_mod_cast hn0
  have hkq : (0 : ℚ) ≤ k := by exact_mod_cast hk0
  have hk2 : (k : ℚ) ≤ n := by exact_mod_cast hkn
  have hq : |(k : ℚ) / n| ≤ 2 ^ 24 := by
    rw [abs_of_nonneg (by positivity)]
    exact ((div_le_one hnq).mpr hk2).trans (by norm_num)
  obtain ⟨g3, e3⟩ := mk32 hq
  refine ⟨g3, ?_⟩
  rw [e1, e2, ← e3]
  show Fl.div _ _ = _
  unfold Fl.div
  simp only
  first
    | rw [if_neg hnq.ne']
    | rfl

theorem rnd32_unit {q : ℚ} (h0 : 0 ≤ q) (h1 : q ≤ 1) :
    0 ≤ rndBin 24 (-149) q ∧ rndBin 24 (-149) q ≤ 1 ∧ |rndBin 24 (-149) q - q| ≤ 1 / 2 ^ 25 := by
  have g1 : GridBin 24 (-149) (1 : ℚ) := by exact_mod_cast grid32_int (z := 1) (by norm_num)
  refine ⟨rndBin_nonneg h0, ?_, ?_⟩
  · have := rndBin_mono (p := 24) (emin := -149) (by norm_num) h1
    rwa [rndBin_id g1] at this
  · rcases h1.lt_or_eq with hlt | heq
    · exact rnd32_near h0 hlt
    · rw [heq, rndBin_id g1]; norm_num

/-- `1.0f - r` -/
theorem oneSub32 {r : ℚ} (g) (h0 : 0 ≤ r) (h1 : r ≤ 1) :
    ∃ gs, (sub (ofInt 1) (.fin r g) : F32) = .fin (rndBin 24 (-149) (1 - r)) gs := by
  obtain ⟨go, ho⟩ := ofInt32 (z := 1) (by norm_num)
  have hs0 : (0 : ℚ) ≤ 1 - r := by linarith
  obtain ⟨gs, hs⟩ := mk32 (q := 1 - r) (by rw [abs_of_nonneg hs0]; linarith)
  refine ⟨gs, ?_⟩
  rw [ho, ← hs]
  show Fl.mk (((1 : Int) : ℚ) - r) = _
  rw [Int.cast_one]

/-- the two roundings, over the rationals -/
theorem errs32 {n k : Int} (hk0 : 0 ≤ k) (hkn : k ≤ n) (hn0 : 0 < n) (hn1 : n ≤ 2 ^ 23) {r s : ℚ}
    (hr : r = rndBin 24 (-149) ((k : ℚ) / n)) (hs : s = rndBin 24 (-149) (1 - r)) :
    (0 ≤ r ∧ r ≤ 1 ∧ |(n : ℚ) * r - k| ≤ 1 / 2) ∧ (0 ≤ s ∧ s ≤ 1 ∧ |(n : ℚ) * s - ((n - k : Int) : ℚ)| ≤ 1 / 2) ∧
    (∀ e : ℕ, n = 2 ^ e → (n : ℚ) * r = k ∧ (n : ℚ) * s = ((n - k : Int) : ℚ)) := by
  have hnq : (0 : ℚ) < n := by exact_mod_cast hn0
  have hn2 : (n : ℚ) ≤ 2 ^ 23 := by exact_mod_cast hn1
  have hkq : (0 : ℚ) ≤ k := by exact_mod_cast hk0
  have hk2 : (k : ℚ) ≤ n := by exact_mod_cast hkn
  obtain ⟨r0, r1, r2⟩ := rnd32_unit (q := (k : ℚ) / n) (by positivity) ((div_le_one hnq).mpr hk2)
  rw [← hr] at r0 r1 r2
  obtain ⟨s0, s1, s2⟩ := rnd32_unit (q := 1 - r) (by linarith) (by linarith)
  rw [← hs] at s0 s1 s2
  have herr : |(n : ℚ) * r - k| ≤ 1 / 4 := by
    have e : (n : ℚ) * r - k = n * (r - k / n) := by rw [mul_sub, mul_div_cancel₀ _ hnq.ne']
    rw [e, abs_mul, abs_of_pos hnq]
    calc _ ≤ (2 : ℚ) ^ 23 * (1 / 2 ^ 25) := mul_le_mul hn2 r2 (abs_nonneg _) (by norm_num)
      _ ≤ _ := by norm_num
  have herr2 : |(n : ℚ) * s - ((n - k : Int) : ℚ)| ≤ 1 / 2 := by
    have e : (n : ℚ) * s - ((n - k : Int) : ℚ) = n * (s - (1 - r)) - (n * r - k) := by push_cast; ring
    have h5 : |(n : ℚ) * (s - (1 - r))| ≤ 1 / 4 := by
      rw [abs_mul, abs_of_pos hnq]
      calc _ ≤ (2 : ℚ) ^ 23 * (1 / 2 ^ 25) := mul_le_mul hn2 s2 (abs_nonneg _) (by norm_num)
        _ ≤ _ := by norm_num
    rw [e]
    exact (abs_sub _ _).trans (by linarith)
  refine ⟨⟨r0, r1, herr.trans (by norm_num)⟩, ⟨s0, s1, herr2⟩, fun e he => ?_⟩
  have he2 : e ≤ 23 := by
    by_contra hc
    have : (2 : Int) ^ 24 ≤ 2 ^ e := pow_le_pow_right₀ (by norm_num) (by omega)
    omega
  have hpe : (n : ℚ) = 2 ^ (e : ℤ) := by rw [he]; push_cast; rw [zpow_natCast]
  have hgr : ∀ z : Int, 0 ≤ z → z ≤ n → GridBin 24 (-149) ((z : ℚ) / n) := fun z h0 h1 =>
    ⟨z, -e, by rw [abs_lt]; omega, by omega, by rw [hpe, zpow_neg]; rfl⟩
  have hrx : r = k / n := by rw [hr]; exact rndBin_id (hgr k hk0 hkn)
  have hsx : s = ((n - k : Int) : ℚ) / n := by
    have e1 : 1 - r = ((n - k : Int) : ℚ) / n := by rw [hrx]; push_cast; field_simp
    rw [hs, e1]
    exact rndBin_id (hgr _ (by omega) (by omega))
  exact ⟨by rw [hrx, mul_div_cancel₀ _ hnq.ne'], by rw [hsx, mul_div_cancel₀ _ hnq.ne']⟩

/-- **C31** (partial): for every `k ≤ n ≤ 2^23` the reported counts are at most the true ones and at
most one short, and they are exact when `n` is a power of two.
Missing: exact counts for other `n`; there the claim is false, see `C31_inliers_wrong`, `C31_outliers_wrong`. -/
theorem C31_counts_partial {F : Type} [FloatOps F] (v : F) {n k : Int} (hk0 : 0 ≤ k) (hkn : k ≤ n) (hn0 : 0 < n) (hn1 : n ≤ 2 ^ 23) :
    ∃ i j, (Cost.ofCount v k n : Cost F F32).numInliers = .ok i ∧ (Cost.ofCount v k n : Cost F F32).numOutliers = .ok j ∧
      k - 1 ≤ i ∧ i ≤ k ∧ n - k - 1 ≤ j ∧ j ≤ n - k ∧
      (∀ e : ℕ, n = 2 ^ e → i = k ∧ j = n - k) := by
  obtain ⟨g, hg⟩ := ratio32 hk0 hkn hn0 hn1
  obtain ⟨⟨r0, r1, r2⟩, ⟨s0, s1, s2⟩, hx⟩ := errs32 hk0 hkn hn0 hn1 rfl rfl
  obtain ⟨gs, hs⟩ := oneSub32 g r0 r1
  obtain ⟨i, i1, i2, i3, i4⟩ := count32 hk0 hkn hn1 g r0 r1 r2
  obtain ⟨j, j1, j2, j3, j4⟩ := count32 (n := n) (k := n - k) (by omega) (by omega) hn1 gs s0 s1 s2
  refine ⟨i, j, ?_, ?_, i2, i3, j2, j3, fun e he => ⟨i4 (hx e he).1, j4 (hx e he).2⟩⟩
  · unfold Cost.numInliers Cost.ofCount
    simp only
    rw [hg]; exact i1
  · unfold Cost.numOutliers Cost.ofCount
    simp only
    rw [hg, hs]; exact j1

/-- **C31 is violated**: 13 inliers of 22 are reported as 12. -/
theorem C31_inliers_wrong : (Cost.ofCount (ofInt 0) 13 22 : Cost (Fl Fmt.binary64) F32).numInliers = .ok 12 := by decide +kernel

/-- **C31 is violated**: with 1 inlier of 3, inliers and outliers are 1 and 1. -/
theorem C31_outliers_wrong : (Cost.ofCount (ofInt 0) 1 3 : Cost (Fl Fmt.binary64) F32).numInliers = .ok 1 ∧
    (Cost.ofCount (ofInt 0) 1 3 : Cost (Fl Fmt.binary64) F32).numOutliers = .ok 1 := by decide +kernel

/-- accumulating a list of costs -/
def Cost.sumList {F R : Type} [FloatOps F] [FloatOps R] [ToInt R] : Cost F R → List (Cost F R) → Res (Cost F R)
  | c, [] => .ok c
  | c, d :: l => (c.plusEq d).bind fun e => e.sumList l

/-- the count is wrong also when costs are accumulated: 13 costs of an inlier and 9 costs of an outlier -/
theorem C31_accumulated_wrong :
    (Cost.sumList Cost.dflt (List.replicate 13 (Cost.ofCount (ofInt 1) 1 1) ++ List.replicate 9 (Cost.ofCount (ofInt 1) 0 1) :
      List (Cost (Fl Fmt.binary64) F32))).bind (·.numInliers) = .ok 12 := by decide +kernel

/-- the hypotheses are met, with an exact and an inexact count -/
example : (Cost.ofCount (ofInt 0) 5 8 : Cost (Fl Fmt.binary64) F32).numInliers = .ok 5 ∧
    (Cost.ofCount (ofInt 0) 5 8 : Cost (Fl Fmt.binary64) F32).numOutliers = .ok 3 ∧ (8 : Int) = 2 ^ 3 ∧ (22 : Int) ≤ 2 ^ 23 := by decide +kernel

/-- **C30**, from a new `Cost()`: adding any list of costs to it yields exactly the sums over the list; the new cost contributes nothing. -/
theorem C30_from_default (l : List (Cost ℝ ℝ)) (h : ∀ c ∈ l, c.Sane) (hm : (l.map (·.num)).sum ≤ intMax)
    (k : Cost ℝ ℝ → Int) (hk : ∀ c ∈ l, c.numInliers = .ok (k c)) :
    ∃ e, Cost.sumList Cost.dflt l = .ok e ∧ e.Sane ∧ e.cost = (l.map (·.cost)).sum ∧ e.num = (l.map (·.num)).sum ∧ e.numInliers = .ok (l.map k).sum := by
  have key : ∀ (l : List (Cost ℝ ℝ)) (c : Cost ℝ ℝ) (kc : Int), c.Sane → c.numInliers = .ok kc → (∀ d ∈ l, d.Sane) →
      c.num + (l.map (·.num)).sum ≤ intMax → (∀ d ∈ l, d.numInliers = .ok (k d)) →
      ∃ e, Cost.sumList c l = .ok e ∧ e.Sane ∧ e.cost = c.cost + (l.map (·.cost)).sum ∧ e.num = c.num + (l.map (·.num)).sum ∧
        e.numInliers = .ok (kc + (l.map k).sum) := by
    intro l
    induction l with
    | nil => intro c kc hc hkc _ _ _; exact ⟨c, rfl, hc, by simp, by simp, by simpa using hkc⟩
    | cons d l ih =>
      intro c kc hc hkc hs hm hk
      have h0 := num_nonneg_sum (l := l) fun e he => hs e (List.mem_cons_of_mem _ he)
      simp only [List.map_cons, List.sum_cons] at hm ⊢
      obtain ⟨e, e1, e2, e3, e4, e5, -⟩ := plusEq_exact hc (hs d List.mem_cons_self) (by omega) hkc (hk d List.mem_cons_self)
      obtain ⟨e', a1, a2, a3, a4, a5⟩ := ih e _ e2 e5 (fun x hx => hs x (List.mem_cons_of_mem _ hx)) (by omega) fun x hx => hk x (List.mem_cons_of_mem _ hx)
      refine ⟨e', ?_, a2, by rw [a3, e3]; ring, by rw [a4, e4]; ring, by rw [a5]; congr 1; ring⟩
      rw [Cost.sumList, e1, Res.bind_ok]; exact a1
  have hd : (Cost.dflt : Cost ℝ ℝ).Sane := ⟨le_refl _, by show (0 : ℝ) ≤ ((1 : Int) : ℝ); norm_num, by show ((1 : Int) : ℝ) ≤ 1; norm_num⟩
  have hn : (Cost.dflt : Cost ℝ ℝ).numInliers = .ok 0 :=
    toI32_real (x := ((0 : Int) : ℝ) * ((1 : Int) : ℝ)) (by norm_num) (by norm_num) (by decide)
  obtain ⟨e, e1, e2, e3, e4, e5⟩ := key l Cost.dflt 0 hd hn h (by show (0 : Int) + _ ≤ _; omega) hk
  refine ⟨e, e1, e2, ?_, ?_, by rw [e5, zero_add]⟩
  · rw [e3]; show ((0 : Int) : ℝ) + _ = _; simp
  · rw [e4]; show (0 : Int) + _ = _; omega

/-- three residuals of which two are inliers, then one that is not -/
example : (∀ c ∈ ([⟨5, 3, 2 / 3, ""⟩, ⟨7, 1, 0, ""⟩] : List (Cost ℝ ℝ)), c.Sane) := by
  intro c hc
  simp only [List.mem_cons, List.not_mem_nil, or_false] at hc
  rcases hc with rfl | rfl <;> exact ⟨by decide, by norm_num, by norm_num⟩

/-- A ratio that is not a number, as of no inliers among no residuals computed by a division, makes the counts and every sum undefined: the conversion to an integer
has no value. -/
theorem C30_ratio_nan {F : Type} [FloatOps F] {f : Fmt} (c d : Cost F (Fl f)) (h : d.inlier = .nan) :
    d.numInliers = .ub ∧ d.numOutliers = .ub ∧ c.plusEq d = .ub := by
  have h1 : d.numInliers = .ub := by
    unfold Cost.numInliers toI32; rw [h]
    cases hn : (ofInt d.num : Fl f) <;> rfl
  refine ⟨h1, ?_, by unfold Cost.plusEq; rw [h1]; rfl⟩
  unfold Cost.numOutliers toI32
  rw [h]
  cases hn : (ofInt d.num : Fl f) <;> cases ho : (ofInt 1 : Fl f) <;> rfl

example : (Cost.ofCount (ofInt 0) 0 0 : Cost (Fl Fmt.binary64) F32).inlier = .nan := by
  have h : isNaN (Cost.ofCount (ofInt 0) 0 0 : Cost (Fl Fmt.binary64) F32).inlier = true := by decide +kernel
  generalize (Cost.ofCount (ofInt 0) 0 0 : Cost (Fl Fmt.binary64) F32).inlier = x at h ⊢
  cases x with
  | nan => rfl
  | _ => cases h

end Verif
