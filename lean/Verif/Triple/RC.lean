import Verif.Triple.Ex
import Verif.DR.RC

/-!
# Triple differences, repeated cross-sections: C49 and C50
-/

set_option linter.unusedSectionVars false
set_option linter.unusedSimpArgs false

namespace Verif.Triple

open Verif.DR (mean ind fitted dot notB NormalEq ScoreEq BothArms treatedShare wavg FourCells did4 cellSel preK postK)

variable {ι κ K : Type*} [Fintype ι] [Fintype κ] [Field K] [LinearOrder K] [IsStrictOrderedRing K] {sg : ι → ℕ}

lemma compDidRC_ok {F : FitsRC sg κ K} {m : Est} {hi level : K} {c : ℕ} {w : ι → K} {x : ι → κ → K} {y : ι → K}
    {post : ι → Bool} {r : K × (ι → K)} (h : compDidRC F m hi level c w x y post = .ok r) :
    rcGuard m (pa4 sg c) (rcKeep F m level c w x) (onSub sg c post) (rcPs F m hi c w x) (onSub sg c w) = none ∧
    r = (compAttRC F m hi level c w x y post, scatter sg c (compIFRC F m hi level c w x y post)) := by
  unfold compDidRC at h
  split at h
  · simp at h
  · rename_i hg; exact ⟨hg, by simpa using h.symm⟩

lemma dddRC_ok {F : FitsRC sg κ K} {m : Est} {hi level : K} {y : ι → K} {post : ι → Bool} {x : ι → κ → K} {w0 : ι → K}
    {r : K × (ι → K)} (h : dddRC F m hi level y post x w0 = .ok r) :
    (∀ i, 0 ≤ w0 i) ∧ (∀ i, sg i ∈ [1, 2, 3, 4]) ∧ (∃ i, sg i = 4) ∧
    ∃ r3 r2 r1, compDidRC F m hi level 3 (DR.normalize w0) x y post = .ok r3 ∧
      compDidRC F m hi level 2 (DR.normalize w0) x y post = .ok r2 ∧
      compDidRC F m hi level 1 (DR.normalize w0) x y post = .ok r1 ∧ r = combine3 sg r3 r2 r1 := by
  unfold dddRC at h
  split_ifs at h with g1 g2 g3
  push Not at g1 g2
  refine ⟨g1, g2, by tauto, ?_⟩
  cases h3 : compDidRC F m hi level 3 (DR.normalize w0) x y post with
  | error e => simp only [h3, bind, Except.bind] at h; simp at h
  | ok r3 =>
    cases h2 : compDidRC F m hi level 2 (DR.normalize w0) x y post with
    | error e => simp only [h3, h2, bind, Except.bind] at h; simp at h
    | ok r2 =>
      cases h1 : compDidRC F m hi level 1 (DR.normalize w0) x y post with
      | error e => simp only [h3, h2, h1, bind, Except.bind] at h; simp at h
      | ok r1 =>
        simp only [h3, h2, h1, bind, Except.bind, pure, Except.pure, Except.ok.injEq] at h
        exact ⟨r3, r2, r1, rfl, rfl, rfl, h.symm⟩

lemma sum_subRC (c k : ℕ) (hk : k = 4 ∨ k = c) (post : ι → Bool) (b : Bool) (f : ι → K) :
    ∑ i : Sub sg c with (sg i.1 = k ∧ post i.1 = b), f i.1 = ∑ i with (sg i = k ∧ post i = b), f i := by
  refine (Finset.sum_map (Finset.univ.filter fun i : Sub sg c => sg i.1 = k ∧ post i.1 = b)
    (Function.Embedding.subtype _) f).symm.trans ?_
  apply Finset.sum_congr _ fun _ _ => rfl
  ext i
  simp only [Finset.mem_map, Finset.mem_filter, Finset.mem_univ, true_and, Function.Embedding.subtype_apply,
    Subtype.exists, exists_prop]
  constructor
  · rintro ⟨j, _, h, rfl⟩; exact h
  · intro h; exact ⟨i, by rcases hk with rfl | rfl <;> simp [h.1], h, rfl⟩

lemma wavg_subRC (c k : ℕ) (hk : k = 4 ∨ k = c) (post : ι → Bool) (b : Bool) (w y : ι → K) :
    wavg (onSub sg c w) (fun i => sg i.1 = k ∧ post i.1 = b) (onSub sg c y) =
      wavg w (fun i => sg i = k ∧ post i = b) y := by
  unfold wavg onSub
  rw [sum_subRC c k hk post b (fun i => w i * y i), sum_subRC c k hk post b w]

lemma did4_sub {c : ℕ} (hc : c ≠ 4) (w y : ι → K) (post : ι → Bool) :
    did4 (onSub sg c w) (pa4 sg c) (onSub sg c post) (onSub sg c y) =
      changeRC w sg post y 4 - changeRC w sg post y c := by
  unfold did4 changeRC
  have e4 : ∀ b, wavg (onSub sg c w) (fun i => pa4 sg c i = true ∧ onSub sg c post i = b) (onSub sg c y) =
      wavg w (fun i => sg i = 4 ∧ post i = b) y := by
    intro b
    rw [← wavg_subRC c 4 (.inl rfl)]
    exact DR.wavg_congr _ _ (by intro i; simp [pa4, onSub])
  have ec : ∀ b, wavg (onSub sg c w) (fun i => pa4 sg c i = false ∧ onSub sg c post i = b) (onSub sg c y) =
      wavg w (fun i => sg i = c ∧ post i = b) y := by
    intro b
    rw [← wavg_subRC c c (.inr rfl)]
    exact DR.wavg_congr _ _ (by intro i; simp [pa4_false hc, onSub])
  rw [e4, e4, ec, ec]

lemma fourCells {c : ℕ} (hc : c ≠ 4) {w : ι → K} {post : ι → Bool} (hw : ∀ i, 0 ≤ w i)
    (h4 : ∀ b, 0 < ∑ i with (sg i = 4 ∧ post i = b), w i) (hk : ∀ b, 0 < ∑ i with (sg i = c ∧ post i = b), w i) :
    FourCells (onSub sg c w) (pa4 sg c) (onSub sg c post) := by
  refine ⟨fun i => hw i.1, fun a b => ?_⟩
  cases a
  · have := hk b
    rw [← sum_subRC c c (.inr rfl) post b w] at this
    have e : (Finset.univ.filter fun i : Sub sg c => pa4 sg c i = false ∧ onSub sg c post i = b) =
        Finset.univ.filter fun i : Sub sg c => sg i.1 = c ∧ post i.1 = b := by
      ext i; simp [pa4_false hc, onSub]
    rw [e]; exact this
  · have := h4 b
    rw [← sum_subRC c 4 (.inl rfl) post b w] at this
    have e : (Finset.univ.filter fun i : Sub sg c => pa4 sg c i = true ∧ onSub sg c post i = b) =
        Finset.univ.filter fun i : Sub sg c => sg i.1 = 4 ∧ post i.1 = b := by
      ext i; simp [pa4, onSub]
    rw [e]; exact this

/-- Intercept-only fits for the cross-sectional comparisons. -/
structure InterceptFitsRC (F : FitsRC sg Unit K) (w : ι → K) (x : ι → Unit → K) (y : ι → K) (post : ι → Bool) : Prop where
  ones : ∀ i, x i () = 1
  ols : ∀ c ∈ [1, 2, 3], ∀ pre treat, NormalEq (onSub sg c w) (cellSel (pa4 sg c) (onSub sg c post) pre treat)
    (onSub sg c x) (onSub sg c y)
    (F.ols c (onSub sg c w) (cellSel (pa4 sg c) (onSub sg c post) pre treat) (onSub sg c x) (onSub sg c y))
  logit : ∀ c ∈ [1, 2, 3], ∃ p, F.logit c (onSub sg c w) (pa4 sg c) (onSub sg c x) = fun _ => p
  score : ∀ c ∈ [1, 2, 3], ScoreEq (onSub sg c w) (pa4 sg c) (onSub sg c x)
    (F.logit c (onSub sg c w) (pa4 sg c) (onSub sg c x))

lemma regRC_const {σ : Type*} [Fintype σ] {w : σ → K} {d post : σ → Bool} (hw : FourCells w d post) (y : σ → K) :
    DR.regRC d post (fun _ => wavg w (fun i => d i = false ∧ post i = false) y)
      (fun _ => wavg w (fun i => d i = false ∧ post i = true) y) y w = did4 w d post y := by
  have := hw.nonempty
  have e1 : ∀ b, (fun i => w i * ind d i * DR.perK post b i) =
      fun i => if d i = true ∧ post i = b then w i else 0 := by
    intro b; funext i
    rw [DR.perK_eq]
    cases h : d i
    · rw [DR.ind_false (b := d) h]; simp
    · rw [DR.ind_true (b := d) h]; by_cases hb : post i = b <;> simp [hb]
  have e2 : (fun i => w i * ind d i) = fun i => ind d i * w i := by funext i; ring
  have hT : mean (fun i => ind d i * w i) ≠ 0 := by
    rw [Ne, DR.mean_eq_zero, DR.sum_ind]; exact hw.arms.treated.ne'
  unfold DR.regRC did4
  rw [DR.postK_perK, DR.preK_perK, e1, e1, DR.wmean_ite, DR.wmean_ite, e2, DR.wmean_const _ _ hT]

lemma drRC_const {σ : Type*} [Fintype σ] {w : σ → K} {d post : σ → Bool} (hw : FourCells w d post) {level p : K}
    (hp : p < level) (hodds : p / (1 - p) ≠ 0) (y : σ → K) (c0 c1 t0 t1 : K) :
    DR.drRC d (DR.trim level d (fun _ => p)) post (fun _ => p) (fun _ => c0) (fun _ => c1) (fun _ => t0) (fun _ => t1) y w
      = did4 w d post y := by
  have := hw.nonempty
  unfold DR.drRC
  rw [DR.tradRC_const hw hp hodds]
  have e0 : (fun i => ind (DR.trim level d (fun _ => p)) i * w i * ind d i) =
      DR.wTreat d (DR.trim level d (fun _ => p)) w := rfl
  have e1 : (fun i => ind (DR.trim level d (fun _ => p)) i * w i * ind d i * postK post i) =
      DR.wTreatRC d (DR.trim level d (fun _ => p)) w (DR.perK post true) := rfl
  have e2 : (fun i => ind (DR.trim level d (fun _ => p)) i * w i * ind d i * (1 - postK post i)) =
      DR.wTreatRC d (DR.trim level d (fun _ => p)) w (DR.perK post false) := rfl
  have hT : mean (fun i => ind d i * w i) ≠ 0 := by
    rw [Ne, DR.mean_eq_zero, DR.sum_ind]; exact hw.arms.treated.ne'
  simp only [DR.hmean_eq_wmean, e0, e1, e2, DR.wTreat_trim, DR.wTreatRC_trim]
  rw [DR.wmean_const _ _ hT, DR.wmean_const _ _ (DR.mean_ite_ne hw true true), DR.wmean_const _ _ hT,
    DR.wmean_const _ _ (DR.mean_ite_ne hw true false)]
  simp

lemma fitted_unit {σ : Type*} [Fintype σ] (x : σ → Unit → K) (hx : ∀ i, x i () = 1) (β : Unit → K) :
    fitted x β = fun _ => β () := by
  funext i; unfold fitted; simp [hx]

/-- One cross-sectional comparison without covariates, for every method. -/
lemma compRC_const (F : FitsRC sg Unit K) (m : Est) (hi level : K) {c : ℕ} (hc3 : c ∈ [1, 2, 3]) (w : ι → K)
    (x : ι → Unit → K) (y : ι → K) (post : ι → Bool) (hF : InterceptFitsRC F w x y post) (hhi0 : 0 < hi) (hhi : hi < 1)
    (hw : ∀ i, 0 ≤ w i) (h4 : ∀ b, 0 < ∑ i with (sg i = 4 ∧ post i = b), w i)
    (hk : ∀ b, 0 < ∑ i with (sg i = c ∧ post i = b), w i) (hlevel : m ≠ .reg → share4 sg w c < level) :
    rcGuard m (pa4 sg c) (rcKeep F m level c w x) (onSub sg c post) (rcPs F m hi c w x) (onSub sg c w) = none ∧
    compAttRC F m hi level c w x y post = changeRC w sg post y 4 - changeRC w sg post y c := by
  have hc : c ≠ 4 := by rintro rfl; simp at hc3
  have hb := fourCells hc hw h4 hk
  have := hb.nonempty
  have hx : ∀ i : Sub sg c, onSub sg c x i () = 1 := fun i => hF.ones i.1
  by_cases hm : m = .reg
  · subst hm
    have hkp : rcKeep F .reg level c w x = fun _ => true := by funext i; simp [rcKeep]
    have hT : ∀ b, DR.wTreatRC (pa4 sg c) (fun _ => true) (onSub sg c w) (DR.perK (onSub sg c post) b) =
        fun i => if pa4 sg c i = true ∧ onSub sg c post i = b then onSub sg c w i else 0 := by
      intro b
      rw [← DR.wTreatRC_trim (1 : K) (pa4 sg c) (onSub sg c post) (fun _ => 0)]
      have : (DR.trim (1 : K) (pa4 sg c) fun _ => 0) = fun _ => true := by funext i; simp [DR.trim]
      rw [this]
    refine ⟨?_, ?_⟩
    · unfold rcGuard
      rw [hkp, DR.postK_perK, DR.preK_perK, hT, hT, if_neg, if_neg]
      · simp
      · rintro (h | h)
        · exact DR.mean_ite_ne hb true false h
        · exact DR.mean_ite_ne hb true true h
    · have hsel : ∀ pre i, cellSel (pa4 sg c) (onSub sg c post) pre false i = true ↔
          (pa4 sg c i = false ∧ onSub sg c post i = !pre) := by
        intro pre i; unfold cellSel; cases pa4 sg c i <;> cases onSub sg c post i <;> cases pre <;> simp
      have hout : ∀ pre, rcOut F .reg c w x y post pre false =
          fun _ => wavg (onSub sg c w) (fun i => pa4 sg c i = false ∧ onSub sg c post i = !pre) (onSub sg c y) := by
        intro pre
        funext i
        unfold rcOut
        have hs : ∑ i with cellSel (pa4 sg c) (onSub sg c post) pre false i = true, onSub sg c w i ≠ 0 := by
          rw [Finset.sum_congr (s₂ := Finset.univ.filter (fun i => pa4 sg c i = false ∧ onSub sg c post i = !pre))
            (by ext i; simp [hsel]) (fun _ _ => rfl)]
          exact (hb.pos false (!pre)).ne'
        rw [if_neg (by decide), DR.intercept_fit _ _ _ hx _ _ (hF.ols c hc3 pre false) hs,
          DR.wavg_congr _ _ (hsel pre)]
      unfold compAttRC
      simp only [hout]
      rw [← did4_sub hc]
      exact regRC_const hb _
  · obtain ⟨p, hp⟩ := hF.logit c hc3
    have hsc := hF.score c hc3
    rw [hp] at hsc
    have hps := DR.intercept_logit _ _ _ hx _ hsc hb.arms.total.ne'
    rw [treatedShare_sub hc] at hps
    have h4' : 0 < ∑ i with sg i = 4, w i := by
      refine lt_of_lt_of_le (h4 true) (Finset.sum_le_sum_of_subset_of_nonneg ?_ fun i _ _ => hw i)
      intro i; simp; tauto
    have hk' : 0 < ∑ i with sg i = c, w i := by
      refine lt_of_lt_of_le (hk true) (Finset.sum_le_sum_of_subset_of_nonneg ?_ fun i _ _ => hw i)
      intro i; simp; tauto
    have hpl : p < level := by rw [hps]; exact hlevel hm
    have hq : rcPs F m hi c w x = fun _ => min p hi := by funext i; unfold rcPs; rw [if_neg hm, hp]
    have hq1 : min p hi < 1 := lt_of_le_of_lt (min_le_right _ _) hhi
    have hp0 : 0 < p := by rw [hps]; exact div_pos h4' (add_pos h4' hk')
    have hq0 : 0 < min p hi := lt_min hp0 hhi0
    have hql : min p hi < level := lt_of_le_of_lt (min_le_left _ _) hpl
    have hodds : min p hi / (1 - min p hi) ≠ 0 := (div_pos hq0 (sub_pos.2 hq1)).ne'
    have hkp : rcKeep F m level c w x = DR.trim level (pa4 sg c) (fun _ => min p hi) := by
      funext i
      unfold rcKeep DR.trim
      rw [if_neg hm, hp]
      simp [hpl, hql]
    refine ⟨?_, ?_⟩
    · unfold rcGuard
      rw [hkp, hq, DR.postK_perK, DR.preK_perK, DR.wTreatRC_trim, DR.wTreatRC_trim, DR.wContRC_const hql,
        DR.wContRC_const hql, if_neg, if_neg]
      · rintro ⟨-, h | h⟩
        · rw [DR.mean_eq_zero, ← Finset.mul_sum, ← Finset.sum_filter] at h
          exact mul_ne_zero hodds (hb.pos false false).ne' h
        · rw [DR.mean_eq_zero, ← Finset.mul_sum, ← Finset.sum_filter] at h
          exact mul_ne_zero hodds (hb.pos false true).ne' h
      · rintro (h | h)
        · exact DR.mean_ite_ne hb true false h
        · exact DR.mean_ite_ne hb true true h
    · rw [← did4_sub hc]
      unfold compAttRC
      by_cases hi' : m = .ipw
      · subst hi'
        simp only [hkp, hq]
        exact DR.ipwRC_const hb hql hodds _
      · have : m = .dr := by cases m <;> simp_all
        subst this
        simp only [hkp, hq]
        have ho : ∀ pre treat, ∃ a, rcOut F .dr c w x y post pre treat = fun _ => a := by
          intro pre treat
          unfold rcOut
          rw [if_neg hi', fitted_unit _ hx]
          exact ⟨_, rfl⟩
        obtain ⟨a, ha⟩ := ho true false
        obtain ⟨b, hb'⟩ := ho false false
        obtain ⟨t, ht⟩ := ho true true
        obtain ⟨u, hu⟩ := ho false true
        rw [ha, hb', ht, hu]
        exact drRC_const hb hql hodds _ _ _ _ _

/-- **C49 (no covariates, repeated cross-sections).** For every method `ddd_rc` returns the triple difference of
weighted mean levels. -/
theorem C49_rc_no_covariates (F : FitsRC sg Unit K) (m : Est) (hi level : K) (y : ι → K) (post : ι → Bool)
    (x : ι → Unit → K) (w : ι → K) (hF : InterceptFitsRC F (DR.normalize w) x y post) (hhi0 : 0 < hi) (hhi : hi < 1)
    (hsg : ∀ i, sg i ∈ [1, 2, 3, 4]) (hw : ∀ i, 0 ≤ w i)
    (hpos : ∀ k ∈ [1, 2, 3, 4], ∀ b, 0 < ∑ i with (sg i = k ∧ post i = b), w i)
    (hlevel : m ≠ .reg → ∀ c ∈ [1, 2, 3], share4 sg w c < level) :
    (dddRC F m hi level y post x w).map Prod.fst = .ok (dddLevels w sg post y) := by
  have h4s : 0 < ∑ i with sg i = 4, w i := by
    refine lt_of_lt_of_le (hpos 4 (by simp) true) (Finset.sum_le_sum_of_subset_of_nonneg ?_ fun i _ _ => hw i)
    intro i; simp; tauto
  have hm := normalize_pos hw h4s
  have hwn : ∀ i, 0 ≤ DR.normalize w i := fun i => div_nonneg (hw i) hm.le
  have hpn : ∀ k ∈ [1, 2, 3, 4], ∀ b, 0 < ∑ i with (sg i = k ∧ post i = b), DR.normalize w i := by
    intro k hk b; unfold DR.normalize; rw [← Finset.sum_div]; exact div_pos (hpos k hk b) hm
  have h4 : ∃ i, sg i = 4 := by
    by_contra hn
    push Not at hn
    rw [Finset.filter_false_of_mem (by intro i _; exact hn i)] at h4s
    simp at h4s
  have key := fun (c : ℕ) (hc : c ∈ [1, 2, 3]) => compRC_const F m hi level (c := c) hc (DR.normalize w) x y post hF hhi0
    hhi hwn (hpn 4 (by simp)) (hpn c (by simp at hc ⊢; tauto))
    (fun h => by rw [share4_normalize hm]; exact hlevel h c hc)
  have hch : ∀ k, changeRC (DR.normalize w) sg post y k = changeRC w sg post y k := by
    intro k; unfold changeRC; rw [DR.wavg_normalize _ _ hm.ne', DR.wavg_normalize _ _ hm.ne']
  unfold dddRC
  rw [if_neg (by push Not; exact hw), if_neg (by push Not; exact hsg), if_neg (not_not.2 h4)]
  have kc : ∀ c ∈ [1, 2, 3], compDidRC F m hi level c (DR.normalize w) x y post =
      .ok (changeRC w sg post y 4 - changeRC w sg post y c,
        scatter sg c (compIFRC F m hi level c (DR.normalize w) x y post)) := by
    intro c hc
    obtain ⟨a, b⟩ := key c hc
    unfold compDidRC
    rw [a, b, hch, hch]
  simp only
  rw [kc 3 (by simp), kc 2 (by simp), kc 1 (by simp)]
  simp only [bind, Except.bind, pure, Except.pure, Except.map, combine3, dddLevels]
  congr 1
  ring

/-! ## Influence function -/

/-- First-order conditions of the fits used by a method, repeated cross-sections. -/
structure FirstOrderRC (m : Est) (F : FitsRC sg κ K) (hi : K) (w : ι → K) (x : ι → κ → K) (y : ι → K) (post : ι → Bool) :
    Prop where
  ols : m ≠ .ipw → ∀ c ∈ [1, 2, 3], ∀ pre treat,
    NormalEq (onSub sg c w) (cellSel (pa4 sg c) (onSub sg c post) pre treat) (onSub sg c x) (onSub sg c y)
    (F.ols c (onSub sg c w) (cellSel (pa4 sg c) (onSub sg c post) pre treat) (onSub sg c x) (onSub sg c y))
  score : m ≠ .reg → ∀ c ∈ [1, 2, 3], ScoreEq (onSub sg c w) (pa4 sg c) (onSub sg c x) (rcPs F m hi c w x)

lemma guard_none {σ : Type*} [Fintype σ] {m : Est} {d tr post : σ → Bool} {ps w : σ → K}
    (h : rcGuard m d tr post ps w = none) :
    mean (DR.wTreatRC d tr w (preK post)) ≠ 0 ∧ mean (DR.wTreatRC d tr w (postK post)) ≠ 0 ∧
    (m ≠ .reg → mean (DR.wContRC d tr ps w (preK post)) ≠ 0 ∧ mean (DR.wContRC d tr ps w (postK post)) ≠ 0) := by
  unfold rcGuard at h
  split_ifs at h with h1 h2
  push Not at h1 h2
  exact ⟨h1.1, h1.2, h2⟩

lemma treat_total {σ : Type*} [Fintype σ] {d tr post : σ → Bool} {w : σ → K} (hw : ∀ i, 0 ≤ w i)
    (h : mean (DR.wTreatRC d tr w (postK post)) ≠ 0) : mean (fun i => ind tr i * w i * ind d i) ≠ 0 := by
  have : Nonempty σ := by
    by_contra hn
    rw [not_nonempty_iff] at hn
    exact h (by unfold mean; simp)
  have hnn : ∀ i, 0 ≤ (ind tr i * w i * ind d i : K) := by
    intro i; unfold ind; split_ifs <;> simp [hw i]
  have hle : ∀ i, DR.wTreatRC d tr w (postK post) i ≤ ind tr i * w i * ind d i := by
    intro i
    unfold DR.wTreatRC postK
    have := hnn i
    unfold ind at this ⊢
    split_ifs at this ⊢ <;> simp_all
  have hpn : ∀ i, 0 ≤ DR.wTreatRC d tr w (postK post) i := by
    intro i
    unfold DR.wTreatRC postK
    have := hnn i
    unfold ind at this ⊢
    split_ifs at this ⊢ <;> simp_all
  rw [Ne, DR.mean_eq_zero] at h ⊢
  have h1 : 0 < ∑ i, DR.wTreatRC d tr w (postK post) i :=
    lt_of_le_of_ne (Finset.sum_nonneg fun i _ => hpn i) (Ne.symm h)
  exact (lt_of_lt_of_le h1 (Finset.sum_le_sum fun i _ => hle i)).ne'

lemma compIFRC_mean_zero (m : Est) (F : FitsRC sg κ K) (hi level : K) {c : ℕ} (hc3 : c ∈ [1, 2, 3]) (w : ι → K)
    (x : ι → κ → K) (y : ι → K) (post : ι → Bool) (hF : FirstOrderRC m F hi w x y post) (hw : ∀ i, 0 ≤ w i)
    (hg : rcGuard m (pa4 sg c) (rcKeep F m level c w x) (onSub sg c post) (rcPs F m hi c w x) (onSub sg c w) = none) :
    mean (compIFRC F m hi level c w x y post) = 0 := by
  obtain ⟨g0, g1, gc⟩ := guard_none hg
  have gt := treat_total (σ := Sub sg c) (fun i => hw i.1) g1
  cases m with
  | reg =>
    have hm : Est.reg ≠ .ipw := by decide
    have hk : rcKeep F .reg level c w x = fun _ => true := by funext i; simp [rcKeep]
    rw [hk] at g0 g1 gt
    have a0 : mean (fun i => onSub sg c w i * ind (pa4 sg c) i * preK (onSub sg c post) i) ≠ 0 := by
      have e : DR.wTreatRC (pa4 sg c) (fun _ => true) (onSub sg c w) (preK (onSub sg c post)) =
        fun i => onSub sg c w i * ind (pa4 sg c) i * preK (onSub sg c post) i := by
        funext i; unfold DR.wTreatRC; rw [DR.ind_true rfl, one_mul]
      rw [e] at g0; exact g0
    have a1 : mean (fun i => onSub sg c w i * ind (pa4 sg c) i * postK (onSub sg c post) i) ≠ 0 := by
      have e : DR.wTreatRC (pa4 sg c) (fun _ => true) (onSub sg c w) (postK (onSub sg c post)) =
        fun i => onSub sg c w i * ind (pa4 sg c) i * postK (onSub sg c post) i := by
        funext i; unfold DR.wTreatRC; rw [DR.ind_true rfl, one_mul]
      rw [e] at g1; exact g1
    have a2 : mean (fun i => onSub sg c w i * ind (pa4 sg c) i) ≠ 0 := by
      have e : (fun i : Sub sg c => ind (fun _ => true) i * w i.1 * ind (pa4 sg c) i) =
        fun i => onSub sg c w i * (ind (pa4 sg c) i : K) := by
        funext i
        have : (ind (fun _ : Sub sg c => true) i : K) = 1 := rfl
        rw [this, one_mul]; rfl
      rw [e] at gt; exact gt
    unfold compIFRC rcOut
    simp only [if_neg hm]
    exact DR.C27_reg_rc _ _ _ _ _ _ _ _ _ a0 a1 a2 (hF.ols hm c hc3 true false) (hF.ols hm c hc3 false false)
  | ipw =>
    have hm : Est.ipw ≠ .reg := by decide
    obtain ⟨c0, c1⟩ := gc hm
    unfold compIFRC
    exact DR.C27_ipw_rc _ _ _ _ _ _ _ _ g0 g1 c0 c1 (hF.score hm c hc3)
  | dr =>
    have hm : Est.dr ≠ .reg := by decide
    have hm' : Est.dr ≠ .ipw := by decide
    obtain ⟨c0, c1⟩ := gc hm
    unfold compIFRC rcOut
    simp only [if_neg hm']
    exact DR.C27_dr_rc _ _ _ _ _ _ _ _ _ _ _ _ _ _ _ _ gt g0 g1 c0 c1 (hF.score hm c hc3)
      (hF.ols hm' c hc3 true false) (hF.ols hm' c hc3 false false) (hF.ols hm' c hc3 true true)
      (hF.ols hm' c hc3 false true)

/-- **C50 (repeated cross-sections).** The influence function of `ddd_rc` is the signed sum of the three comparisons',
each zero outside its subgroups and rescaled by `n / n_comparison`, and it averages to zero. -/
theorem C50_rc (m : Est) (F : FitsRC sg κ K) (hi level : K) (y : ι → K) (post : ι → Bool) (x : ι → κ → K) (w0 : ι → K)
    (hF : FirstOrderRC m F hi (DR.normalize w0) x y post) (r : K × (ι → K))
    (h : dddRC F m hi level y post x w0 = .ok r) :
    let ψ := fun c => compIFRC F m hi level c (DR.normalize w0) x y post
    (∀ i, r.2 i = embed sg 3 (ψ 3) i + embed sg 2 (ψ 2) i - embed sg 1 (ψ 1) i) ∧ mean r.2 = 0 := by
  obtain ⟨hw, _, h4, r3, r2, r1, h3, h2, h1, rfl⟩ := dddRC_ok h
  obtain ⟨g3, rfl⟩ := compDidRC_ok h3
  obtain ⟨g2, rfl⟩ := compDidRC_ok h2
  obtain ⟨g1, rfl⟩ := compDidRC_ok h1
  have hwn : ∀ i, 0 ≤ DR.normalize w0 i := by
    intro i
    refine div_nonneg (hw i) ?_
    unfold mean
    exact div_nonneg (Finset.sum_nonneg fun i _ => hw i) (by positivity)
  have hcomb : (combine3 sg
      (compAttRC F m hi level 3 (DR.normalize w0) x y post, scatter sg 3 (compIFRC F m hi level 3 (DR.normalize w0) x y post))
      (compAttRC F m hi level 2 (DR.normalize w0) x y post, scatter sg 2 (compIFRC F m hi level 2 (DR.normalize w0) x y post))
      (compAttRC F m hi level 1 (DR.normalize w0) x y post,
        scatter sg 1 (compIFRC F m hi level 1 (DR.normalize w0) x y post))).2 =
      fun i => embed sg 3 (compIFRC F m hi level 3 (DR.normalize w0) x y post) i +
        embed sg 2 (compIFRC F m hi level 2 (DR.normalize w0) x y post) i -
        embed sg 1 (compIFRC F m hi level 1 (DR.normalize w0) x y post) i := by
    funext i
    simp only [combine3, ratio_scatter _ h4]
  intro ψ
  refine ⟨fun i => congrFun hcomb i, ?_⟩
  rw [hcomb, DR.mean_sub', DR.mean_add']
  have z := fun c hc g => mean_embed (sg := sg) c _ (compIFRC_mean_zero m F hi level (c := c) hc (DR.normalize w0) x
    y post hF hwn g)
  have e3 := z 3 (by simp) g3
  have e2 := z 2 (by simp) g2
  have e1 := z 1 (by simp) g1
  unfold mean at e3 e2 e1 ⊢
  rw [e3, e2, e1]; simp

/-! Non-vacuity: eleven observations, all eight subgroup-by-period cells populated. -/

/-- Closed-form intercept-only fits. -/
def meanFitsRC (sg : ι → ℕ) : FitsRC sg Unit K where
  ols := fun _ w sel _ y _ => (∑ i with sel i = true, w i * y i) / ∑ i with sel i = true, w i
  logit := fun _ w d _ _ => treatedShare w d
  hess := fun _ ps _ _ => (mean fun i => ps i * (1 - ps i))⁻¹
  inv := fun M _ _ => (M () ())⁻¹

lemma meanFitsRC_intercept (w y : ι → K) (x : ι → Unit → K) (post : ι → Bool) (hx : ∀ i, x i () = 1) (hw : ∀ i, 0 ≤ w i)
    (hpos : ∀ k ∈ [1, 2, 3, 4], ∀ b, 0 < ∑ i with (sg i = k ∧ post i = b), w i) :
    InterceptFitsRC (meanFitsRC sg) w x y post := by
  have hb : ∀ c ∈ [1, 2, 3], FourCells (onSub sg c w) (pa4 sg c) (onSub sg c post) := fun c hc =>
    fourCells (by rintro rfl; simp at hc) hw (hpos 4 (by simp)) (hpos c (by simp at hc ⊢; tauto))
  refine ⟨hx, fun c hc pre treat => ?_, fun c hc => ⟨_, rfl⟩, fun c hc k => ?_⟩
  · refine meanFits_normal (onSub sg c w) (onSub sg c y) (cellSel (pa4 sg c) (onSub sg c post) pre treat) (onSub sg c x)
      (fun i => hx i.1) ?_
    rw [Finset.sum_congr (s₂ := Finset.univ.filter (fun i => pa4 sg c i = treat ∧ onSub sg c post i = !pre))
      (by ext i; simp [cellSel]) (fun _ _ => rfl)]
    exact ((hb c hc).pos treat (!pre)).ne'
  · have ht := (hb c hc).arms.total.ne'
    unfold meanFitsRC treatedShare
    simp only [onSub, hx, mul_one, mul_sub, Finset.sum_sub_distrib, ← Finset.sum_mul, mul_ite, mul_zero]
    have ht' : ∑ i : Sub sg c, w i.1 ≠ 0 := ht
    rw [mul_div_cancel₀ _ ht', ← Finset.sum_filter, sub_self]

def exSgR : Fin 10 → ℕ := ![4, 4, 4, 3, 3, 2, 2, 1, 1, 1]
def exPostR : Fin 10 → Bool := ![true, true, false, true, false, true, false, true, false, false]
def exWR : Fin 10 → ℚ := ![1, 2, 1, 1, 1, 3, 2, 1, 1, 1]
def exYR : Fin 10 → ℚ := ![10, 16, 5, 6, 4, 3, 1, 2, 3, 1]

lemma exPosR : ∀ k ∈ [1, 2, 3, 4], ∀ b, (0 : ℚ) < ∑ i with (exSgR i = k ∧ exPostR i = b), exWR i := by decide +kernel
lemma exFitsR : InterceptFitsRC (meanFitsRC exSgR) (DR.normalize exWR) (fun _ _ => 1) exYR exPostR :=
  meanFitsRC_intercept _ _ _ _ (fun _ => rfl) (by decide +kernel) (by decide +kernel)

/-- Changes 9, 2, 2, 0: the triple difference is 5 for all three methods. -/
theorem ex_rc_no_covariates (m : Est) : (dddRC (meanFitsRC exSgR) m (9/10) (99/100) exYR exPostR (fun _ _ => 1) exWR).map
    Prod.fst = .ok 5 := by
  rw [C49_rc_no_covariates (meanFitsRC exSgR) m (9/10) (99/100) exYR exPostR (fun _ _ => 1) exWR exFitsR (by norm_num)
    (by norm_num) (by decide) (by decide +kernel) exPosR (fun _ => by decide +kernel)]
  have : dddLevels exWR exSgR exPostR exYR = 5 := by decide +kernel
  rw [this]

lemma exFirstOrderR (m : Est) : FirstOrderRC m (meanFitsRC exSgR) (9/10) (DR.normalize exWR) (fun _ _ => 1) exYR exPostR := by
  refine ⟨fun _ => exFitsR.ols, fun hm c hc => ?_⟩
  have hs := exFitsR.score c hc
  have : rcPs (meanFitsRC exSgR) m (9/10) c (DR.normalize exWR) (fun _ _ => 1) =
      (meanFitsRC exSgR).logit c (onSub exSgR c (DR.normalize exWR)) (pa4 exSgR c) (onSub exSgR c fun _ _ => 1) := by
    funext i
    unfold rcPs
    rw [if_neg hm]
    apply min_eq_left
    have hc4 : c ≠ 4 := by rintro rfl; simp at hc
    have e : (meanFitsRC exSgR).logit c (onSub exSgR c (DR.normalize exWR)) (pa4 exSgR c) (onSub exSgR c fun _ _ => 1) i =
      share4 exSgR (DR.normalize exWR) c := treatedShare_sub hc4 _
    rw [e]
    clear hs i hc4 e
    revert c
    decide +kernel
  rw [this]
  exact hs

example (m : Est) : ∃ r, dddRC (meanFitsRC exSgR) m (9/10) (99/100) exYR exPostR (fun _ _ => 1) exWR = .ok r ∧
    r.1 = 5 ∧ mean r.2 = 0 := by
  have := ex_rc_no_covariates m
  cases h : dddRC (meanFitsRC exSgR) m (9/10) (99/100) exYR exPostR (fun _ _ => (1 : ℚ)) exWR with
  | error e => rw [h] at this; simp [Except.map] at this
  | ok r =>
    rw [h] at this
    simp only [Except.map, Except.ok.injEq] at this
    exact ⟨r, rfl, this, (C50_rc m _ _ _ _ _ _ _ (exFirstOrderR m) r h).2⟩

end Verif.Triple
