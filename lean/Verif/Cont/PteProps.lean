import Verif.Cont.PteAgg

set_option linter.unusedSectionVars false
set_option linter.unusedSimpArgs false

/-! # Aggregation in `pte`: labels, bootstrap types, weights (C225-C227) -/

namespace Verif.Cont

variable {K : Type*}

/-! ## C225: labels of cells -/

theorem origOf_get (ps : List ℤ) (i : ℕ) (hi : i < ps.length) : origOf ps ((i : ℤ) + 1) = ps[i] := by
  unfold origOf
  rw [if_pos (by omega)]
  have : ((i : ℤ) + 1 - 1).toNat = i := by omega
  rw [this, List.getElem?_eq_getElem hi]
  rfl

/-- **C225.**  Cells are reported in calendar units whenever some evaluated index is not itself an observed period (years, say), and when the
periods are numbered `1..T`.  With the empirical bootstrap they always are. -/
theorem C225_labels (ps : List ℤ) (universal : Bool) (req : ℕ) (hreq : 1 ≤ req) (i : ℕ) (hi : i < ps.length) :
    (((∃ t ∈ pteTimes universal req ps.length, t ∉ ps) ∨ ps = (List.range ps.length).map fun i : ℕ => (i : ℤ) + 1) →
      pteLabel ps (pteTimes universal req ps.length) ((i : ℤ) + 1) = ps[i]) ∧
    pteLabelEmp ps (pteTimes universal req ps.length) ((i : ℤ) + 1) = ps[i] := by
  constructor
  · rintro (⟨t, ht, hn⟩ | h)
    · unfold pteLabel
      rw [if_neg fun h => hn (h t ht), origOf_get ps i hi]
    · unfold pteLabel
      split_ifs
      · have hl : i < ((List.range ps.length).map fun i : ℕ => (i : ℤ) + 1).length := by simpa using hi
        have : ((List.range ps.length).map fun i : ℕ => (i : ℤ) + 1)[i] = ps[i] := by
          congr 1; exact h.symm
        rw [← this]; simp
      · rw [origOf_get ps i hi]
  · unfold pteLabelEmp
    split_ifs with h
    · have hlen := congrArg List.length h
      unfold pteTimes at h hlen
      cases universal
      · simp only [Bool.false_eq_true, if_false, List.length_drop, List.length_map, List.length_range] at hlen
        omega
      · simp only [if_true, List.drop_zero] at h
        have hl : i < ((List.range ps.length).map fun i : ℕ => (i : ℤ) + 1).length := by simpa using hi
        have : ((List.range ps.length).map fun i : ℕ => (i : ℤ) + 1)[i] = ps[i] := by
          congr 1
        rw [← this]; simp
    · rw [origOf_get ps i hi]

example : pteLabel [2001, 2003, 2004] (pteTimes false 1 3) 2 = 2003 :=
  (C225_labels [2001, 2003, 2004] false 1 le_rfl 1 (by decide)).1 (Or.inl ⟨2, by decide, by decide⟩)

/-- **C225 (violated).**  If the periods do not include `1` but include `2..T` (a panel observed from period 2 on), no label is translated
back: every cell is reported under an earlier period and cohort than the one it is about. -/
theorem C225_labels_violated (ps : List ℤ) (hps : ps.Pairwise (· < ·)) (hpos : ∀ p ∈ ps, 0 < p) (h1 : 1 ∉ ps)
    (hall : ∀ t ∈ pteTimes false 1 ps.length, t ∈ ps) (i : ℕ) (hi : i < ps.length) :
    pteLabel ps (pteTimes false 1 ps.length) ((i : ℤ) + 1) = (i : ℤ) + 1 ∧ (i : ℤ) + 1 < ps[i] := by
  constructor
  · unfold pteLabel
    rw [if_pos hall]
  · induction i with
    | zero =>
      have h2 := hpos _ (List.getElem_mem hi)
      have : ps[0] ≠ 1 := fun h => h1 (h ▸ List.getElem_mem hi)
      push_cast; omega
    | succ i ih =>
      have h2 := ih (by omega)
      have h3 := (get_lt_iff ps hps i (i + 1) (by omega) hi).2 (by omega)
      push_cast; omega

section
variable [Field K] [LinearOrder K] [IsStrictOrderedRing K]

/-- Rows (cohort, weight) of the first period after the cohorts treated in it are dropped, `process_panel.py:410-411`. -/
def keptRows (ps : List ℤ) (fr : List (WithTop ℤ × K)) : List (WithTop ℤ × K) :=
  fr.filter fun r => decide (mapIdx ps r.1 ≠ ((1 : ℤ) : WithTop ℤ))

/-- The cohort labelled `2` has no row: the units of calendar cohort `2` were dropped. -/
theorem share_two (ps : List ℤ) (hps : ps.Pairwise (· < ·)) (hpos : ∀ p ∈ ps, 0 < p) (h1 : 1 ∉ ps) (h2 : (2 : ℤ) ∈ ps)
    (fr : List (WithTop ℤ × K)) : shareOf (keptRows ps fr) 2 = 0 := by
  unfold shareOf
  have : ((keptRows ps fr).map fun r => if r.1 = ((2 : ℤ) : WithTop ℤ) then r.2 else 0).sum = 0 := by
    refine List.sum_eq_zero ?_
    intro x hx
    obtain ⟨r, hr, rfl⟩ := List.mem_map.1 hx
    rw [if_neg]
    intro he
    unfold keptRows at hr
    have hd := (List.mem_filter.1 hr).2
    rw [decide_eq_true_eq, he] at hd
    apply hd
    obtain ⟨k, hk, hk2⟩ := mem_get ps 2 h2
    have hk0 : k = 0 := by
      by_contra hc
      have h3 := (get_lt_iff ps hps 0 k (by omega) hk).2 (by omega)
      have h4 := hpos _ (List.getElem_mem (show 0 < ps.length by omega))
      have : ps[0] ≠ 1 := fun h => h1 (h ▸ List.getElem_mem _)
      omega
    subst hk0
    show ((mapFin ps 2 : ℤ) : WithTop ℤ) = _
    rw [← hk2, mapFin_get ps hps 0 hk]
    rfl
  rw [this, zero_div]

/-- **C225 (violated).**  In that situation the cohort shares are taken from other cohorts: the earliest estimated cohort, reported under the
label `2`, gets weight zero, so that its effects do not enter the overall effect at all. -/
theorem C225_shares_violated (ps : List ℤ) (hps : ps.Pairwise (· < ·)) (hpos : ∀ p ∈ ps, 0 < p) (h1 : 1 ∉ ps)
    (hall : ∀ t ∈ pteTimes false 1 ps.length, t ∈ ps) (fr : List (WithTop ℤ × K)) (hw : ∀ r ∈ fr, 0 ≤ r.2)
    (gs : List ℤ) (hgs : gs.Pairwise (· < ·)) (hsub : ∀ g ∈ gs, g ∈ pteTimes false 1 ps.length) (h2g : (2 : ℤ) ∈ gs)
    (g0 : ℤ) (hg0 : g0 ∈ gs) (hs0 : 0 < shareOf (keptRows ps fr) g0) (att att' : ℤ × ℤ → K)
    (hatt : ∀ c, c.1 ≠ 2 → att c = att' c) :
    ∃ x, mulOverall (shareOf (keptRows ps fr)) (product (pteTimes false 1 ps.length) gs) att = some x ∧
      mulOverall (shareOf (keptRows ps fr)) (product (pteTimes false 1 ps.length) gs) att' = some x := by
  have hts : (pteTimes false 1 ps.length).Pairwise (· < ·) := by
    unfold pteTimes
    refine List.Pairwise.sublist (List.drop_sublist _ _) ?_
    rw [List.pairwise_map]
    exact List.pairwise_lt_range.imp fun h => by omega
  have hge : ∀ t ∈ pteTimes false 1 ps.length, 0 < t := by
    intro t ht
    have := List.mem_of_mem_drop ht
    rw [List.mem_map] at this
    obtain ⟨i, _, rfl⟩ := this
    omega
  have hne : gs ≠ [] := List.ne_nil_of_mem h2g
  have hnn : ∀ g, 0 ≤ shareOf (keptRows ps fr) g := by
    intro g
    unfold shareOf
    refine div_nonneg (List.sum_nonneg ?_) (by positivity)
    intro x hx
    obtain ⟨r, hr, rfl⟩ := List.mem_map.1 hx
    split_ifs
    · exact hw r (List.mem_filter.1 hr).1
    · exact le_rfl
  have hmem_le : ∀ (l : List K), (∀ x ∈ l, 0 ≤ x) → ∀ x ∈ l, x ≤ l.sum := fun l hl x hx => List.single_le_sum hl x hx
  have hs : 0 < (gs.map (shareOf (keptRows ps fr))).sum := by
    refine lt_of_lt_of_le hs0 (hmem_le _ ?_ _ (List.mem_map.2 ⟨g0, hg0, rfl⟩))
    intro x hx
    obtain ⟨g, _, rfl⟩ := List.mem_map.1 hx
    exact hnn g
  have h20 := share_two ps hps hpos h1 (hall 2 (hsub 2 h2g)) fr
  have hsel : 0 < (((product (pteTimes false 1 ps.length) gs).filter fun c => decide (toIdx (product (pteTimes false 1 ps.length) gs) c.1 ≤
      toIdx (product (pteTimes false 1 ps.length) gs) c.2)).map fun c => shareOf (keptRows ps fr) c.1).sum := by
    refine lt_of_lt_of_le hs0 (hmem_le _ ?_ _ (List.mem_map.2 ⟨(g0, g0), List.mem_filter.2 ⟨mem_product.2 ⟨hg0, hsub g0 hg0⟩, ?_⟩, rfl⟩))
    · intro x hx
      obtain ⟨c, _, rfl⟩ := List.mem_map.1 hx
      exact hnn c.1
    · simp
  refine ⟨_, aggSel_product hts hgs hne hsub (fun g hg => hge g (hsub g hg)) _ hs att _ hsel, ?_⟩
  unfold mulOverall
  rw [aggSel_product hts hgs hne hsub (fun g hg => hge g (hsub g hg)) _ hs att' _ hsel]
  congr 2
  refine congrArg List.sum (List.map_congr_left fun c _ => ?_)
  by_cases h : c.1 = 2
  · rw [h, h20, zero_mul, zero_mul]
  · rw [hatt c h]

/-- Periods `2, 3, 4`; two units first treated in `3`, one in `4`, one never treated.  The labels are `2` and `3`, and the effect of the
first cohort (here `100`) does not enter the overall effect, which is the effect `1` of the other cohort. -/
example : mulOverall (shareOf (keptRows [2, 3, 4] [(((3 : ℤ) : WithTop ℤ), (1 : ℚ)), (((3 : ℤ) : WithTop ℤ), 1), (((4 : ℤ) : WithTop ℤ), 1),
      (((0 : ℤ) : WithTop ℤ), 1)])) (product (pteTimes false 1 3) [2, 3]) (fun c => if c.1 = 2 then 100 else 1) = some 1 := by decide +kernel

example : ∃ x, mulOverall (shareOf (keptRows [2, 3, 4] [(((3 : ℤ) : WithTop ℤ), (1 : ℚ)), (((3 : ℤ) : WithTop ℤ), 1),
      (((4 : ℤ) : WithTop ℤ), 1), (((0 : ℤ) : WithTop ℤ), 1)])) (product (pteTimes false 1 3) [2, 3]) (fun c => if c.1 = 2 then 100 else 1) = some x ∧
    mulOverall (shareOf (keptRows [2, 3, 4] [(((3 : ℤ) : WithTop ℤ), (1 : ℚ)), (((3 : ℤ) : WithTop ℤ), 1),
      (((4 : ℤ) : WithTop ℤ), 1), (((0 : ℤ) : WithTop ℤ), 1)])) (product (pteTimes false 1 3) [2, 3]) (fun _ => 1) = some x :=
  C225_shares_violated [2, 3, 4] (by decide) (by decide) (by decide) (by decide +kernel) _ (by decide +kernel) [2, 3] (by decide) (by decide +kernel)
    (by decide) 3 (by decide) (by decide +kernel) _ _ (fun c hc => by simp [hc])

/-! ## C226: point estimates do not depend on the bootstrap type -/

/-- Unit weights and the same number of rows per cohort in both periods: the multiplier share is proportional to the empirical count. -/
theorem share_count (fr1 fr2 : List (WithTop ℤ × K)) (hw : ∀ r ∈ fr1, r.2 = 1)
    (hbal : ∀ g : ℤ, fr1.countP (fun r => decide (r.1 = (g : WithTop ℤ))) = fr2.countP fun r => decide (r.1 = (g : WithTop ℤ))) (g : ℤ) :
    shareOf fr1 g = nGroup fr2 g / (fr1.length : K) := by
  unfold shareOf nGroup
  rw [← hbal g]
  congr 1
  have : ∀ l : List (WithTop ℤ × K), (∀ r ∈ l, r.2 = 1) → (l.map fun r => if r.1 = (g : WithTop ℤ) then r.2 else 0).sum =
      ((l.countP fun r => decide (r.1 = (g : WithTop ℤ)) : ℕ) : K) := by
    intro l
    induction l with
    | nil => simp
    | cons a l ih =>
      intro hl
      rw [List.map_cons, List.sum_cons, ih fun r hr => hl r (List.mem_cons_of_mem _ hr), List.countP_cons]
      by_cases h : a.1 = (g : WithTop ℤ)
      · simp [h, hl a (by simp)]; ring
      · simp [h]
  exact this fr1 hw

/-- **C226.**  Without sampling weights, on a balanced panel observed in consecutive periods, every event-study effect is the same with the
multiplier and with the empirical bootstrap. -/
theorem C226_event_study (ts gs : List ℤ) (a : ℤ) (m : ℕ) (hcon : ts = (List.range m).map fun i : ℕ => a + i) (hgs : gs.Pairwise (· < ·))
    (hne : gs ≠ []) (hsub : ∀ g ∈ gs, g ∈ ts) (hpos : ∀ g ∈ gs, 0 < g) (fr1 fr2 : List (WithTop ℤ × K)) (hw : ∀ r ∈ fr1, r.2 = 1)
    (hbal : ∀ g : ℤ, fr1.countP (fun r => decide (r.1 = (g : WithTop ℤ))) = fr2.countP fun r => decide (r.1 = (g : WithTop ℤ)))
    (hex : ∀ g ∈ gs, ∃ r ∈ fr1, r.1 = (g : WithTop ℤ)) (att : ℤ × ℤ → K) (e : ℤ) :
    mulDyn (shareOf fr1) (product ts gs) att e = empDyn (nGroup fr2) (product ts gs) att e := by
  have hts : ts.Pairwise (· < ·) := by
    rw [hcon, List.pairwise_map]
    exact List.pairwise_lt_range.imp fun h => by omega
  obtain ⟨g1, hg1⟩ := List.exists_mem_of_ne_nil gs hne
  have hL : (0 : K) < fr1.length := by
    obtain ⟨r, hr, _⟩ := hex g1 hg1
    exact_mod_cast List.length_pos_of_mem hr
  have hnp : ∀ g ∈ gs, 0 < nGroup fr2 g := by
    intro g hg
    obtain ⟨r, hr, he⟩ := hex g hg
    unfold nGroup
    rw [← hbal g]
    have : 0 < fr1.countP fun r => decide (r.1 = (g : WithTop ℤ)) := List.countP_pos_iff.2 ⟨r, hr, by simpa using he⟩
    exact_mod_cast this
  have hsh : ∀ g, shareOf fr1 g = nGroup fr2 g / (fr1.length : K) := share_count fr1 fr2 hw hbal
  have hshp : ∀ g ∈ gs, 0 < shareOf fr1 g := fun g hg => by rw [hsh]; exact div_pos (hnp g hg) hL
  have hsump : ∀ (α : Type) (l : List α) (f : α → K), l ≠ [] → (∀ x ∈ l, 0 < f x) → 0 < (l.map f).sum := by
    intro α l f hl hf
    exact List.sum_pos _ (by intro x hx; obtain ⟨y, hy, rfl⟩ := List.mem_map.1 hx; exact hf y hy) (by simpa using hl)
  have hfil : (product ts gs).filter (fun c => decide (eventIdx (product ts gs) c = e)) =
      (product ts gs).filter fun c => decide (c.2 - c.1 = e) := by
    refine List.filter_congr fun c hc => ?_
    obtain ⟨h1, h2⟩ := mem_product.1 hc
    unfold eventIdx
    rw [toIdx_consecutive hts hne a m hcon h2 (hsub _ h1)]
  obtain ⟨ks, hks⟩ : ∃ l, l = (product ts gs).filter fun c => decide (c.2 - c.1 = e) := ⟨_, rfl⟩
  have hmem : ∀ c ∈ ks, c.1 ∈ gs := fun c hc => by rw [hks] at hc; exact (mem_product.1 (List.mem_filter.1 hc).1).1
  unfold mulDyn empDyn
  by_cases hk : ks = []
  · have : aggSel (shareOf fr1) (product ts gs) att (fun c => decide (eventIdx (product ts gs) c = e)) = none := by
      unfold aggSel
      rw [if_pos (by rw [hfil, ← hks, hk])]
    rw [this]
    simp only [← hks, hk, List.map_nil, List.sum_nil, if_true]
  · have hsel : 0 < (ks.map fun c => shareOf fr1 c.1).sum := hsump _ ks _ hk fun c hc => hshp _ (hmem c hc)
    have hseln : 0 < (ks.map fun c => nGroup fr2 c.1).sum := hsump _ ks _ hk fun c hc => hnp _ (hmem c hc)
    rw [aggSel_product hts hgs hne hsub hpos _ (hsump _ gs _ hne hshp) att _ (by rw [hfil, ← hks]; exact hsel), hfil]
    dsimp only
    rw [← hks, if_neg hseln.ne', sum_map_mul_div]
    congr 1
    have e1 : (ks.map fun c => shareOf fr1 c.1 * att c).sum = (ks.map fun c => nGroup fr2 c.1 * att c).sum / (fr1.length : K) := by
      rw [← sum_map_div_right]
      refine congrArg List.sum (List.map_congr_left fun c _ => ?_)
      rw [hsh]; ring
    have e2 : (ks.map fun c => shareOf fr1 c.1).sum = (ks.map fun c => nGroup fr2 c.1).sum / (fr1.length : K) := by
      rw [← sum_map_div_right]
      refine congrArg List.sum (List.map_congr_left fun c _ => ?_)
      rw [hsh]
    rw [e1, e2, div_div_div_cancel_right₀ hL.ne']

/-- Rows used in the examples: two units first treated in `2`, one in `3`, one never treated. -/
def exRows : List (WithTop ℤ × ℚ) := [(((2 : ℤ) : WithTop ℤ), 1), (((2 : ℤ) : WithTop ℤ), 1), (((3 : ℤ) : WithTop ℤ), 1), (((0 : ℤ) : WithTop ℤ), 1)]

def exAtt (c : ℤ × ℤ) : ℚ := if c.1 = 3 then 3 else if c.2 = 2 then 0 else 12

example : mulDyn (shareOf exRows) (product [2, 3] [2, 3]) exAtt 0 = empDyn (nGroup exRows) (product [2, 3] [2, 3]) exAtt 0 :=
  C226_event_study [2, 3] [2, 3] 2 2 (by decide) (by decide) (by decide) (by decide) (by decide) exRows exRows (by decide +kernel) (fun _ => rfl)
    (by decide +kernel) exAtt 0

example : empDyn (nGroup exRows) (product [2, 3] [2, 3]) exAtt 0 = some 1 := by decide +kernel

/-- **C226.**  The overall effects in closed form: with the multiplier bootstrap every post-treatment cell counts with the size of its cohort,
so that early cohorts count once per period; with the empirical bootstrap the cohort means are averaged with the cohort sizes. -/
theorem C226_overall (ts gs : List ℤ) (hts : ts.Pairwise (· < ·)) (hgs : gs.Pairwise (· < ·)) (hne : gs ≠ [])
    (hsub : ∀ g ∈ gs, g ∈ ts) (hpos : ∀ g ∈ gs, 0 < g) (n : ℤ → K) (hn : ∀ g ∈ gs, 0 < n g) (att : ℤ × ℤ → K) :
    mulOverall n (product ts gs) att = some
      ((gs.map fun g => n g * ((ts.filter fun t => decide (g ≤ t)).map fun t => att (g, t)).sum).sum /
        (gs.map fun g => n g * ((ts.filter fun t => decide (g ≤ t)).length : K)).sum) ∧
    empOverall n (product ts gs) att = some
      ((gs.map fun g => n g * (((ts.filter fun t => decide (g ≤ t)).map fun t => att (g, t)).sum /
        ((ts.filter fun t => decide (g ≤ t)).length : K))).sum / (gs.map n).sum) := by
  have hnd : gs.Nodup := hgs.imp fun h => ne_of_lt h
  have hpost : (product ts gs).filter (fun c => decide (toIdx (product ts gs) c.1 ≤ toIdx (product ts gs) c.2)) = postCells (product ts gs) := by
    unfold postCells
    refine List.filter_congr fun c hc => ?_
    obtain ⟨h1, h2⟩ := mem_product.1 hc
    exact decide_eq_decide.2 (toIdx_le hts hne (hsub _ h1) h2)
  have hsplit : ∀ f : ℤ × ℤ → K, ((postCells (product ts gs)).map f).sum =
      (gs.map fun g => ((ts.filter fun t => decide (g ≤ t)).map fun t => f (g, t)).sum).sum := by
    intro f
    unfold postCells
    rw [sum_map_filter_ite, sum_product]
    refine congrArg List.sum (List.map_congr_left fun g _ => ?_)
    rw [sum_map_filter_ite]
  have hpostOf : ∀ g ∈ gs, ∀ f : ℤ × ℤ → K, ((postOf (product ts gs) g).map f).sum =
      ((ts.filter fun t => decide (g ≤ t)).map fun t => f (g, t)).sum := by
    intro g hg f
    unfold postOf
    rw [sum_map_filter_ite, hsplit]
    have : ∀ L : List ℤ, L.Nodup → g ∈ L → (L.map fun g' => ((ts.filter fun t => decide (g' ≤ t)).map fun t =>
        if decide (g' = g) = true then f (g', t) else 0).sum).sum = ((ts.filter fun t => decide (g ≤ t)).map fun t => f (g, t)).sum := by
      intro L
      induction L with
      | nil => intro _ h; simp at h
      | cons x L ih =>
        intro hL hm
        obtain ⟨hx, hL'⟩ := List.nodup_cons.1 hL
        rw [List.map_cons, List.sum_cons]
        by_cases h : x = g
        · subst h
          have hz : (L.map fun g' => ((ts.filter fun t => decide (g' ≤ t)).map fun t =>
              if decide (g' = x) = true then f (g', t) else 0).sum).sum = 0 := by
            refine List.sum_eq_zero ?_
            intro y hy
            obtain ⟨g', hg', rfl⟩ := List.mem_map.1 hy
            refine List.sum_eq_zero ?_
            intro z hz
            obtain ⟨t, _, rfl⟩ := List.mem_map.1 hz
            rw [if_neg]
            simp only [decide_eq_true_eq]
            rintro rfl; exact hx hg'
          rw [hz, add_zero]; simp
        · rw [ih hL' ((List.mem_cons.1 hm).resolve_left (Ne.symm h))]
          simp [h]
    exact this gs hnd hg
  have hlen : ∀ g ∈ gs, ((postOf (product ts gs) g).length : K) = ((ts.filter fun t => decide (g ≤ t)).length : K) := by
    intro g hg
    have := hpostOf g hg fun _ => 1
    simpa using this
  have hnpos : 0 < (gs.map n).sum :=
    List.sum_pos _ (by intro x hx; obtain ⟨y, hy, rfl⟩ := List.mem_map.1 hx; exact hn y hy) (by simpa using hne)
  have hcnt : ∀ g ∈ gs, (0 : K) < ((ts.filter fun t => decide (g ≤ t)).length : K) := by
    intro g hg
    have : 0 < (ts.filter fun t => decide (g ≤ t)).length :=
      List.length_pos_of_mem (List.mem_filter.2 ⟨hsub g hg, by simp⟩)
    exact_mod_cast this
  constructor
  · have hd : ((postCells (product ts gs)).map fun c => n c.1).sum = (gs.map fun g => n g * ((ts.filter fun t => decide (g ≤ t)).length : K)).sum := by
      rw [hsplit]
      refine congrArg List.sum (List.map_congr_left fun g _ => ?_)
      simp [mul_comm]
    have hdpos : 0 < (gs.map fun g => n g * ((ts.filter fun t => decide (g ≤ t)).length : K)).sum :=
      List.sum_pos _ (by intro x hx; obtain ⟨y, hy, rfl⟩ := List.mem_map.1 hx; exact mul_pos (hn y hy) (hcnt y hy)) (by simpa using hne)
    unfold mulOverall
    rw [aggSel_product hts hgs hne hsub hpos n hnpos att _ (by rw [hpost, hd]; exact hdpos), hpost, hd, hsplit]
    congr 2
    refine congrArg List.sum (List.map_congr_left fun g _ => ?_)
    dsimp only
    rw [List.sum_map_mul_left]
  · have hgr : (empGroups (product ts gs)).Perm gs := by
      unfold empGroups
      rw [List.perm_ext_iff_of_nodup (List.nodup_dedup _) hnd]
      intro x
      rw [List.mem_dedup, List.mem_map]
      unfold postCells
      constructor
      · rintro ⟨c, hc, rfl⟩; exact (mem_product.1 (List.mem_filter.1 hc).1).1
      · intro hx
        exact ⟨(x, x), List.mem_filter.2 ⟨mem_product.2 ⟨hx, hsub x hx⟩, by simp⟩, rfl⟩
    have hs : ((empGroups (product ts gs)).map n).sum = (gs.map n).sum := (hgr.map n).sum_eq
    unfold empOverall
    dsimp only
    rw [hs, if_neg hnpos.ne', ((hgr.map _).sum_eq), sum_map_mul_div]
    congr 2
    refine congrArg List.sum (List.map_congr_left fun g hg => ?_)
    unfold empGroup
    rw [hpostOf g hg, hlen g hg]

/-- **C226 (violated).**  The overall effect depends on the bootstrap type: cohorts `2` (two units, effects `0` and `12`) and `3` (one unit,
effect `3`) have the overall effect `27/5` with the multiplier bootstrap, `5` with the empirical bootstrap; for an event study the
multiplier bootstrap reports the mean over event times, `13/2`, the empirical bootstrap still `5`. -/
theorem C226_overall_violated :
    mulOverall (shareOf exRows) (product [2, 3] [2, 3]) exAtt = some (27 / 5) ∧
    mulEventOverall (shareOf exRows) (product [2, 3] [2, 3]) exAtt = some (13 / 2) ∧
    empOverall (nGroup exRows) (product [2, 3] [2, 3]) exAtt = some 5 := by decide +kernel

example : empOverall (nGroup exRows) (product [2, 3] [2, 3]) exAtt = some
      ((([2, 3] : List ℤ).map fun g => nGroup exRows g * (((([2, 3] : List ℤ).filter fun t => decide (g ≤ t)).map fun t => exAtt (g, t)).sum /
        ((([2, 3] : List ℤ).filter fun t => decide (g ≤ t)).length : ℚ))).sum / (([2, 3] : List ℤ).map (nGroup exRows)).sum) :=
  (C226_overall [2, 3] [2, 3] (by decide) (by decide) (by decide) (by decide) (by decide) (nGroup exRows) (by decide +kernel) exAtt).2

/-- **C226 (violated).**  Event times are counted in observed periods with the multiplier bootstrap and in calendar units with the empirical
one: for two adjacent observed periods the multiplier event time is `1` whatever the distance between them. -/
theorem C226_gap_violated (ts gs : List ℤ) (hts : ts.Pairwise (· < ·)) (hne : gs ≠ []) (i : ℕ) (hi : i + 1 < ts.length)
    (hgap : ts[i] + 1 < ts[i + 1]) :
    eventIdx (product ts gs) (ts[i], ts[i + 1]) = 1 ∧ ts[i + 1] - ts[i] ≠ 1 := by
  have hn : ts.Nodup := hts.imp fun h => ne_of_lt h
  refine ⟨?_, by omega⟩
  unfold eventIdx
  rw [toIdx_mem hts hne (List.getElem_mem hi), toIdx_mem hts hne (List.getElem_mem (show i < ts.length by omega)),
    List.Nodup.idxOf_getElem hn, List.Nodup.idxOf_getElem hn]
  push_cast; ring

example : eventIdx (product [2002, 2004] [2002]) (2002, 2004) = 1 :=
  (C226_gap_violated [2002, 2004] [2002] (by decide) (by decide) 0 (by decide) (by decide)).1

/-- **C226 (violated).**  Sampling weights are ignored with the empirical bootstrap. -/
theorem C226_weights_violated (fr fr' : List (WithTop ℤ × K)) (h : fr.map Prod.fst = fr'.map Prod.fst) (cells : List (ℤ × ℤ))
    (att : ℤ × ℤ → K) (e : ℤ) :
    empDyn (nGroup fr) cells att e = empDyn (nGroup fr') cells att e ∧ empOverall (nGroup fr) cells att = empOverall (nGroup fr') cells att := by
  have : nGroup fr = nGroup fr' := by
    funext g
    unfold nGroup
    have e1 : ∀ l : List (WithTop ℤ × K), l.countP (fun r => decide (r.1 = (g : WithTop ℤ))) =
        (l.map Prod.fst).countP fun x => decide (x = (g : WithTop ℤ)) := by
      intro l; rw [List.countP_map]; rfl
    rw [e1, e1, h]
  rw [this]
  exact ⟨rfl, rfl⟩

/-- The weighted event-study effect differs. -/
example : mulDyn (shareOf [(((2 : ℤ) : WithTop ℤ), (1 : ℚ)), (((3 : ℤ) : WithTop ℤ), 3)]) (product [2, 3] [2, 3]) exAtt 0 = some (9 / 4) ∧
    empDyn (nGroup [(((2 : ℤ) : WithTop ℤ), (1 : ℚ)), (((3 : ℤ) : WithTop ℤ), 3)]) (product [2, 3] [2, 3]) exAtt 0 = some (3 / 2) := by
  decide +kernel

/-! ## C227: weights with the empirical bootstrap -/

/-- **C227.**  For any list of cells and nonnegative cohort sizes with a positive total, the reported overall weights are nonnegative, sum to
one, vanish before treatment, and the overall effect is the average of the cells with these weights.  The same holds for the weights of
each event time. -/
theorem C227_weights (n : ℤ → K) (hn : ∀ g, 0 ≤ n g) (cells : List (ℤ × ℤ)) (att : ℤ × ℤ → K) :
    (0 < ((empGroups cells).map n).sum →
      (∀ c, 0 ≤ empOverallW n cells c) ∧ (∀ c, c.2 < c.1 → empOverallW n cells c = 0) ∧
      (cells.map (empOverallW n cells)).sum = 1 ∧
      empOverall n cells att = some (cells.map fun c => empOverallW n cells c * att c).sum) ∧
    ∀ e, 0 < ((cells.filter fun c => decide (c.2 - c.1 = e)).map fun c => n c.1).sum →
      (∀ c, 0 ≤ empDynW n cells e c) ∧ (∀ c, c.2 - c.1 ≠ e → empDynW n cells e c = 0) ∧
      (cells.map (empDynW n cells e)).sum = 1 ∧
      empDyn n cells att e = some (cells.map fun c => empDynW n cells e c * att c).sum := by
  constructor
  · intro hs
    have hpostsum : ∀ f : ℤ × ℤ → K, (cells.map fun c => empOverallW n cells c * f c).sum =
        ((empGroups cells).map fun g => (((postOf cells g).map f).sum / ((postOf cells g).length : K)) *
          (n g / ((empGroups cells).map n).sum)).sum := by
      intro f
      have e1 : (cells.map fun c => empOverallW n cells c * f c).sum = ((postCells cells).map fun c =>
          n c.1 / ((empGroups cells).map n).sum / ((postOf cells c.1).length : K) * f c).sum := by
        unfold postCells
        rw [sum_map_filter_ite]
        refine congrArg List.sum (List.map_congr_left fun c _ => ?_)
        unfold empOverallW
        by_cases h : c.1 ≤ c.2
        · rw [if_pos (by omega), if_pos (by simpa using h)]
        · rw [if_neg (by omega), if_neg (by simpa using h), zero_mul]
      rw [e1, sum_by_key Prod.fst _ (empGroups cells) (List.nodup_dedup _) (postCells cells)
        (fun c hc => List.mem_dedup.2 (List.mem_map.2 ⟨c, hc, rfl⟩))]
      refine congrArg List.sum (List.map_congr_left fun g _ => ?_)
      have e2 : (((postCells cells).filter fun c => decide (c.1 = g)).map fun c =>
          n c.1 / ((empGroups cells).map n).sum / ((postOf cells c.1).length : K) * f c) =
          (postOf cells g).map fun c => n g / ((empGroups cells).map n).sum / ((postOf cells g).length : K) * f c := by
        refine List.map_congr_left fun c hc => ?_
        have : c.1 = g := by simpa using (List.mem_filter.1 hc).2
        rw [this]
      rw [e2, List.sum_map_mul_left]
      ring
    refine ⟨?_, ?_, ?_, ?_⟩
    · intro c
      unfold empOverallW
      split_ifs
      · exact div_nonneg (div_nonneg (hn _) hs.le) (by positivity)
      · exact le_rfl
    · intro c hc
      unfold empOverallW
      rw [if_neg (by omega)]
    · have h1 := hpostsum fun _ => 1
      simp only [mul_one] at h1
      rw [h1]
      have h2 : ((empGroups cells).map fun g => (((postOf cells g).map fun _ => (1 : K)).sum / ((postOf cells g).length : K)) *
          (n g / ((empGroups cells).map n).sum)) = (empGroups cells).map fun g => n g / ((empGroups cells).map n).sum := by
        refine List.map_congr_left fun g hg => ?_
        have hl : ((postOf cells g).length : K) ≠ 0 := by
          have hg' := List.mem_dedup.1 hg
          obtain ⟨c, hc, hcg⟩ := List.mem_map.1 hg'
          have : 0 < (postOf cells g).length := List.length_pos_of_mem (List.mem_filter.2 ⟨hc, by simpa using hcg⟩)
          exact_mod_cast this.ne'
        rw [List.map_const', List.sum_replicate, nsmul_eq_mul, mul_one, div_self hl, one_mul]
      rw [h2, sum_map_div_right, div_self hs.ne']
    · rw [hpostsum att]
      unfold empOverall
      dsimp only
      rw [if_neg hs.ne']
      rfl
  · intro e hs
    have hdynsum : ∀ f : ℤ × ℤ → K, (cells.map fun c => empDynW n cells e c * f c).sum =
        ((cells.filter fun c => decide (c.2 - c.1 = e)).map fun c => f c *
          (n c.1 / ((cells.filter fun c => decide (c.2 - c.1 = e)).map fun c => n c.1).sum)).sum := by
      intro f
      rw [sum_map_filter_ite]
      refine congrArg List.sum (List.map_congr_left fun c _ => ?_)
      unfold empDynW
      by_cases h : c.2 - c.1 = e
      · rw [if_pos h, if_pos (by simpa using h), mul_comm]
      · rw [if_neg h, if_neg (by simpa using h), zero_mul]
    refine ⟨?_, ?_, ?_, ?_⟩
    · intro c
      unfold empDynW
      split_ifs
      · exact div_nonneg (hn _) hs.le
      · exact le_rfl
    · intro c hc
      unfold empDynW
      rw [if_neg hc]
    · have h1 := hdynsum fun _ => 1
      simp only [mul_one, one_mul] at h1
      have h3 : (cells.map (empDynW n cells e)).sum = (cells.map fun c => empDynW n cells e c).sum := rfl
      rw [h3, h1, sum_map_div_right, div_self hs.ne']
    · rw [hdynsum att]
      unfold empDyn
      dsimp only
      rw [if_neg hs.ne']

/-- **C227.**  The weights of a cohort's effect are uniform over its post-treatment cells. -/
theorem C227_group (cells : List (ℤ × ℤ)) (att : ℤ × ℤ → K) (g : ℤ) (hg : g ∈ empGroups cells) :
    (∀ c, 0 ≤ empGroupW (K := K) cells g c) ∧ (∀ c, c.2 < c.1 ∨ c.1 ≠ g → empGroupW (K := K) cells g c = 0) ∧
    (cells.map (empGroupW (K := K) cells g)).sum = 1 ∧ empGroup cells att g = (cells.map fun c => empGroupW cells g c * att c).sum := by
  have hl : ((postOf cells g).length : K) ≠ 0 := by
    obtain ⟨c, hc, hcg⟩ := List.mem_map.1 (List.mem_dedup.1 hg)
    have : 0 < (postOf cells g).length := List.length_pos_of_mem (List.mem_filter.2 ⟨hc, by simpa using hcg⟩)
    exact_mod_cast this.ne'
  have key : ∀ f : ℤ × ℤ → K, (cells.map fun c => empGroupW cells g c * f c).sum = ((postOf cells g).map f).sum / ((postOf cells g).length : K) := by
    intro f
    rw [← sum_map_div_right]
    have e : ((postOf cells g).map fun c => f c / ((postOf cells g).length : K)).sum =
        (cells.map fun c => if c.1 ≤ c.2 ∧ c.1 = g then f c / ((postOf cells g).length : K) else 0).sum := by
      generalize ((postOf cells g).length : K) = L
      unfold postOf postCells
      rw [List.filter_filter, sum_map_filter_ite]
      refine congrArg List.sum (List.map_congr_left fun c _ => ?_)
      by_cases h : c.1 ≤ c.2 ∧ c.1 = g
      · rw [if_pos h, if_pos (by rw [Bool.and_eq_true, decide_eq_true_eq, decide_eq_true_eq]; exact ⟨h.2, h.1⟩)]
      · rw [if_neg h, if_neg (by rw [Bool.and_eq_true, decide_eq_true_eq, decide_eq_true_eq]; exact fun h' => h ⟨h'.2, h'.1⟩)]
    rw [e]
    refine congrArg List.sum (List.map_congr_left fun c _ => ?_)
    unfold empGroupW
    by_cases h : c.1 ≤ c.2 ∧ c.1 = g
    · rw [if_pos h, if_pos h]; ring
    · rw [if_neg h, if_neg h, zero_mul]
  refine ⟨?_, ?_, ?_, ?_⟩
  · intro c
    unfold empGroupW
    by_cases h : c.1 ≤ c.2 ∧ c.1 = g
    · rw [if_pos h]; positivity
    · rw [if_neg h]
  · intro c hc
    unfold empGroupW
    rw [if_neg]
    rintro ⟨h1, h2⟩
    rcases hc with hc | hc
    · omega
    · exact hc h2
  · have h1 := key fun _ => 1
    simp only [mul_one] at h1
    have h3 : (cells.map (empGroupW (K := K) cells g)).sum = (cells.map fun c => empGroupW cells g c).sum := rfl
    rw [h3, h1, List.map_const', List.sum_replicate, nsmul_eq_mul, mul_one, div_self hl]
  · rw [key att]; rfl

example : ((product [2, 3] [2, 3]).map (empOverallW (nGroup exRows) (product [2, 3] [2, 3]))).sum = 1 :=
  ((C227_weights (nGroup exRows) (fun g => by unfold nGroup; positivity) (product [2, 3] [2, 3]) exAtt).1 (by decide +kernel)).2.2.1

example : (product [2, 3] [2, 3]).map (empOverallW (nGroup exRows) (product [2, 3] [2, 3])) = [1 / 3, 0, 1 / 3, 1 / 3] := by decide +kernel

example : empGroup (product [2, 3] [2, 3]) exAtt 2 = ((product [2, 3] [2, 3]).map fun c => empGroupW (product [2, 3] [2, 3]) 2 c * exAtt c).sum :=
  (C227_group (product [2, 3] [2, 3]) exAtt 2 (by decide)).2.2.2

end

end Verif.Cont
