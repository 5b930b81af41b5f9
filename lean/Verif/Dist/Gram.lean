import Verif.Dist.Model
import Mathlib.Tactic.Ring
import Mathlib.Tactic.Linarith
import Mathlib.Tactic.NormNum
import Mathlib.Tactic.FieldSimp
import Mathlib.Algebra.Field.Rat
import Mathlib.Algebra.Order.Ring.Rat
import Mathlib.Data.Fin.VecNotation

/-!
# Blocked Gram matrices, chunked covariances, partition tuning (C43, C47, C48)
-/

set_option linter.unusedSectionVars false
set_option linter.unusedSimpArgs false

namespace Verif.Dist

variable {K : Type*} [Field K]

/-! ## Ranges -/

theorem mem_pyRange {start stop step v : ℕ} (hs : 0 < step) :
    v ∈ pyRange start stop step ↔ ∃ q, v = start + step * q ∧ v < stop := by
  unfold pyRange
  rw [List.mem_map]
  constructor
  · rintro ⟨q, hq, rfl⟩
    rw [List.mem_range, Nat.lt_div_iff_mul_lt hs] at hq
    refine ⟨q, rfl, ?_⟩
    have : q * step = step * q := Nat.mul_comm _ _
    omega
  · rintro ⟨q, rfl, hlt⟩
    refine ⟨q, ?_, rfl⟩
    rw [List.mem_range, Nat.lt_div_iff_mul_lt hs]
    have : q * step = step * q := Nat.mul_comm _ _
    omega

/-- Every index below `stop` lies in a block. -/
theorem exists_block {k bs a : ℕ} (hs : 0 < bs) (ha : a < k) :
    ∃ i, i ∈ pyRange 0 k bs ∧ i ≤ a ∧ a < i + min bs (k - i) := by
  refine ⟨bs * (a / bs), (mem_pyRange hs).2 ⟨a / bs, by ring, ?_⟩, ?_, ?_⟩
  · exact lt_of_le_of_lt (Nat.mul_div_le a bs) ha
  · exact Nat.mul_div_le a bs
  · have h1 := Nat.mul_div_le a bs
    have h2 := Nat.lt_mul_div_succ a hs
    rw [Nat.mul_add] at h2
    omega

/-- Preservation plus establishment by one step of a fold. -/
theorem foldl_establish {S α : Type*} (f : S → α → S) (P : S → Prop) (l : List α)
    (hpres : ∀ s a, a ∈ l → P s → P (f s a)) (a : α) (ha : a ∈ l) (hest : ∀ s, P (f s a)) (s : S) :
    P (l.foldl f s) := by
  induction l generalizing s with
  | nil => simp at ha
  | cons b l ih =>
    have keep : ∀ s, P s → P (l.foldl f s) := by
      intro s hs
      have hp : ∀ s a, a ∈ l → P s → P (f s a) := fun s a h => hpres s a (List.mem_cons_of_mem _ h)
      clear ih ha hest hpres
      induction l generalizing s with
      | nil => simpa
      | cons c l ih2 => exact ih2 _ (hp _ _ (by simp) hs) fun s a h => hp s a (List.mem_cons_of_mem _ h)
    rw [List.foldl_cons]
    rcases List.mem_cons.1 ha with rfl | h
    · exact keep _ (hest s)
    · exact ih (fun s a h => hpres s a (List.mem_cons_of_mem _ h)) h _

theorem foldl_preserve {S α : Type*} (f : S → α → S) (P : S → Prop) (l : List α)
    (hpres : ∀ s a, a ∈ l → P s → P (f s a)) (s : S) (hs : P s) : P (l.foldl f s) := by
  induction l generalizing s with
  | nil => simpa
  | cons c l ih => exact ih (fun s a h => hpres s a (List.mem_cons_of_mem _ h)) _ (hpres _ _ (by simp) hs)

/-! ## C43 -/

theorem plainGram_symm (n : ℕ) (X : ℕ → ℕ → K) (w : ℕ → K) (a b : ℕ) : plainGram n X w a b = plainGram n X w b a :=
  Finset.sum_congr rfl fun r _ => by ring

/-- One write of the inner loop leaves an entry alone or sets it to the right value. -/
theorem gramInner_entry (n k bs : ℕ) (X : ℕ → ℕ → K) (w : ℕ → K) (i j : ℕ) (g : ℕ → ℕ → K) (a b : ℕ) :
    (gramInner n k bs X w i g j a b = plainGram n X w a b) ∨
      (gramInner n k bs X w i g j a b = g a b ∧
        ¬ (i ≤ a ∧ a < i + min bs (k - i) ∧ j ≤ b ∧ b < j + min bs (k - j)) ∧
        ¬ (i ≠ j ∧ j ≤ a ∧ a < j + min bs (k - j) ∧ i ≤ b ∧ b < i + min bs (k - i))) := by
  unfold gramInner
  by_cases hij : i = j
  · subst hij
    simp only [ne_eq, not_true_eq_false, if_false, false_and, not_false_eq_true, and_true]
    unfold setBlock
    split_ifs with h
    · left
      unfold plainGram
      have e1 : i + (a - i) = a := by omega
      have e2 : i + (b - i) = b := by omega
      simp only [e1, e2]
    · exact Or.inr ⟨rfl, h⟩
  · rw [if_pos hij]
    by_cases h2 : j ≤ a ∧ a < j + min bs (k - j) ∧ i ≤ b ∧ b < i + min bs (k - i)
    · left
      rw [setBlock, if_pos h2]
      have e1 : i + (b - i) = b := by omega
      have e2 : j + (a - j) = a := by omega
      rw [e1, e2]
      rw [setBlock, if_pos (by omega), e1, e2]
      exact plainGram_symm n X w b a
    · rw [setBlock, if_neg h2]
      by_cases h1 : i ≤ a ∧ a < i + min bs (k - i) ∧ j ≤ b ∧ b < j + min bs (k - j)
      · left
        rw [setBlock, if_pos h1]
        have e1 : i + (a - i) = a := by omega
        have e2 : j + (b - j) = b := by omega
        rw [e1, e2]; rfl
      · right
        rw [setBlock, if_neg h1]
        exact ⟨rfl, h1, fun h => h2 h.2⟩

theorem gramOuter_fst_preserve (n k bs : ℕ) (X : ℕ → ℕ → K) (w z : ℕ → K) (a b : ℕ)
    (s : (ℕ → ℕ → K) × (ℕ → K)) (i : ℕ) (h : s.1 a b = plainGram n X w a b) :
    (gramOuter n k bs X w z s i).1 a b = plainGram n X w a b := by
  unfold gramOuter
  refine foldl_preserve _ (fun g : ℕ → ℕ → K => g a b = plainGram n X w a b) _ ?_ _ h
  intro g j _ hg
  rcases gramInner_entry n k bs X w i j g a b with h | h
  · exact h
  · rw [h.1, hg]

/-- C43: for every block size (at least one), every number of rows and columns and all data, the blocked computation
returns `X'WX` and `X'Wz`. -/
theorem C43_blocked_gram (n k bs : ℕ) (hbs : 0 < bs) (X : ℕ → ℕ → K) (w z : ℕ → K) :
    (∀ a < k, ∀ b < k, (weightedGram n k bs X w z).1 a b = ∑ r ∈ Finset.range n, w r * X r a * X r b) ∧
      (∀ a < k, (weightedGram n k bs X w z).2 a = ∑ r ∈ Finset.range n, w r * X r a * z r) := by
  have e1 : ∀ a b, plainGram n X w a b = ∑ r ∈ Finset.range n, w r * X r a * X r b := fun a b =>
    Finset.sum_congr rfl fun r _ => by ring
  have e2 : ∀ a, plainRhs n X w z a = ∑ r ∈ Finset.range n, w r * X r a * z r := fun a =>
    Finset.sum_congr rfl fun r _ => by ring
  simp only [← e1, ← e2]
  unfold weightedGram
  split_ifs with hk
  · exact ⟨fun a _ b _ => rfl, fun a _ => rfl⟩
  constructor
  · -- it suffices to treat `a` in a block at or before that of `b`
    have main : ∀ a b i j, i ∈ pyRange 0 k bs → j ∈ pyRange 0 k bs → i ≤ j → i ≤ a → a < i + min bs (k - i) →
        j ≤ b → b < j + min bs (k - j) →
        ((pyRange 0 k bs).foldl (gramOuter n k bs X w z) (fun _ _ => 0, fun _ => 0)).1 a b = plainGram n X w a b ∧
        ((pyRange 0 k bs).foldl (gramOuter n k bs X w z) (fun _ _ => 0, fun _ => 0)).1 b a = plainGram n X w b a := by
      intro a b i j hi hj hij h1 h2 h3 h4
      have hj' : j ∈ pyRange i k bs := by
        obtain ⟨p, hp, _⟩ := (mem_pyRange hbs).1 hi
        obtain ⟨q, hq, hlt⟩ := (mem_pyRange hbs).1 hj
        refine (mem_pyRange hbs).2 ⟨q - p, ?_, hlt⟩
        have : p ≤ q := by
          have : bs * p ≤ bs * q := by omega
          exact Nat.le_of_mul_le_mul_left this hbs
        rw [Nat.mul_sub]
        have : bs * p ≤ bs * q := Nat.mul_le_mul_left _ this
        omega
      constructor
      · refine foldl_establish _ (fun s : (ℕ → ℕ → K) × (ℕ → K) => s.1 a b = plainGram n X w a b) _
          (fun s i _ h => gramOuter_fst_preserve n k bs X w z a b s i h) i hi ?_ _
        intro s
        refine foldl_establish _ (fun g : ℕ → ℕ → K => g a b = plainGram n X w a b) _ ?_ j hj' ?_ _
        · intro g j _ hg
          rcases gramInner_entry n k bs X w i j g a b with h | h
          · exact h
          · rw [h.1, hg]
        · intro g
          rcases gramInner_entry n k bs X w i j g a b with h | h
          · exact h
          · exact absurd ⟨h1, h2, h3, h4⟩ h.2.1
      · refine foldl_establish _ (fun s : (ℕ → ℕ → K) × (ℕ → K) => s.1 b a = plainGram n X w b a) _
          (fun s i _ h => gramOuter_fst_preserve n k bs X w z b a s i h) i hi ?_ _
        intro s
        refine foldl_establish _ (fun g : ℕ → ℕ → K => g b a = plainGram n X w b a) _ ?_ j hj' ?_ _
        · intro g j _ hg
          rcases gramInner_entry n k bs X w i j g b a with h | h
          · exact h
          · rw [h.1, hg]
        · intro g
          rcases gramInner_entry n k bs X w i j g b a with h | h
          · exact h
          · by_cases hne : i = j
            · subst hne
              exact absurd ⟨h3, h4, h1, h2⟩ h.2.1
            · exact absurd ⟨hne, h3, h4, h1, h2⟩ h.2.2
    intro a ha b hb
    obtain ⟨i, hi, hi1, hi2⟩ := exists_block hbs ha
    obtain ⟨j, hj, hj1, hj2⟩ := exists_block hbs hb
    rcases le_total i j with h | h
    · exact (main a b i j hi hj h hi1 hi2 hj1 hj2).1
    · exact (main b a j i hj hi h hj1 hj2 hi1 hi2).2
  · intro a ha
    obtain ⟨i, hi, hi1, hi2⟩ := exists_block hbs ha
    have key : ∀ (s : (ℕ → ℕ → K) × (ℕ → K)) (i : ℕ), (gramOuter n k bs X w z s i).2 a = plainRhs n X w z a ∨
        ((gramOuter n k bs X w z s i).2 a = s.2 a ∧ ¬ (i ≤ a ∧ a < i + min bs (k - i))) := by
      intro s i
      unfold gramOuter setSlice
      simp only
      split_ifs with h
      · left
        unfold plainRhs
        have e1 : i + (a - i) = a := by omega
        rw [e1]
      · exact Or.inr ⟨rfl, h⟩
    refine foldl_establish _ (fun s : (ℕ → ℕ → K) × (ℕ → K) => s.2 a = plainRhs n X w z a) _ ?_ i hi ?_ _
    · intro s i _ hs
      rcases key s i with h | h
      · exact h
      · rw [h.1, hs]
    · intro s
      rcases key s i with h | h
      · exact h
      · exact absurd ⟨hi1, hi2⟩ h.2

/-- Three columns in blocks of two: entry (2,0) comes from the transposed write. -/
example : (weightedGram 2 3 2 (fun r c => ((r + 1) * (c + 2) : ℚ)) (fun r => r + 1) (fun r => r)).1 2 0 = 72 ∧
    (weightedGram 2 3 2 (fun r c => ((r + 1) * (c + 2) : ℚ)) (fun r => r + 1) (fun r => r)).2 2 = 16 := by
  decide +kernel

/-! ## C47 -/

theorem cross_append {κ : Type*} (l m : List (κ → K)) (a b : κ) : cross (l ++ m) a b = cross l a b + cross m a b := by
  simp [cross]

theorem vcovLoop_eq {κ : Type*} (size : ℕ) (rows : List (κ → K)) (l : List ℕ) (V : κ → κ → K) (a b : κ) :
    vcovLoop size rows l V a b = V a b + (l.map fun s => cross ((rows.drop s).take size) a b).sum := by
  induction l generalizing V with
  | nil => simp [vcovLoop]
  | cons s l ih => simp [vcovLoop, ih, add_assoc]

theorem chunk_sum {κ : Type*} (size : ℕ) (rows : List (κ → K)) (a b : κ) (m : ℕ) :
    ((List.range m).map fun q => cross ((rows.drop (size * q)).take size) a b).sum =
      cross (rows.take (size * m)) a b := by
  induction m with
  | zero => simp [cross]
  | succ m ih =>
    rw [List.range_succ, List.map_append, List.sum_append, ih, Nat.mul_succ, List.take_add, cross_append]
    simp

/-- C47: below or above the threshold, for every chunk size, the result is `Psi'Psi / n`. -/
theorem C47_chunked_eq {κ : Type*} (threshold size : ℕ) (hs : 0 < size) (rows : List (κ → K)) (nUnits : K) (a b : κ) :
    chunkedVcov threshold size rows nUnits a b = (rows.map fun r => r a * r b).sum / nUnits := by
  unfold chunkedVcov
  split_ifs with h
  · rfl
  · simp only
    rw [vcovLoop_eq, pyRange, List.map_map]
    have := chunk_sum size rows a b ((rows.length - 0 + size - 1) / size)
    simp only [Function.comp_def, Nat.zero_add]
    rw [this, List.take_of_length_le, zero_add]
    · rfl
    · have := Nat.lt_mul_div_succ (rows.length - 0 + size - 1) hs
      rw [Nat.mul_add] at this
      omega

example : chunkedVcov 1 2 [fun _ : Fin 1 => (1 : ℚ), fun _ => 2, fun _ => 3] 3 0 0 = 14 / 3 := by decide +kernel

/-- C47: the distributed standard error squared is the same for every way of splitting the rows into partitions. -/
theorem C47_distributed_variance {κ : Type*} (parts : List (List (κ → K))) (n : K) (a : κ) :
    varDist parts n a = ((parts.flatten.map fun r => r a * r a).sum / n) / n := by
  unfold varDist reduceGramList
  have gen : ∀ (ps : List (List (κ → K))) (acc : κ → κ → K),
      (ps.map fun p => some (fun b c : κ => cross p b c)).foldl gramStep (some acc) = some (fun b c => acc b c + cross ps.flatten b c) := by
    intro ps
    induction ps with
    | nil => intro acc; simp [cross]
    | cons p ps ih =>
      intro acc
      simp only [List.map_cons, List.foldl_cons, gramStep, ih, List.flatten_cons, cross_append]
      congr 1
      funext b c
      simp [add_assoc]
  cases parts with
  | nil => simp
  | cons p ps =>
    simp only [List.map_cons, List.foldl_cons, gramStep, gen, List.flatten_cons]
    rw [← cross_append]
    rfl

example : varDist [[fun _ : Fin 1 => (1 : ℚ)], [fun _ => 2, fun _ => 3]] 3 0 = 14 / 9 := by decide +kernel

/-- C47: quadratic forms in the covariance are non-negative (in particular its diagonal is), for every chunk size. -/
theorem C47_psd {κ F : Type*} [Fintype κ] [Field F] [LinearOrder F] [IsStrictOrderedRing F] (threshold size : ℕ)
    (hs : 0 < size) (rows : List (κ → F)) (nUnits : F) (hn : 0 < nUnits) (v : κ → F) :
    0 ≤ ∑ a, ∑ b, v a * chunkedVcov threshold size rows nUnits a b * v b := by
  have key : ∑ a, ∑ b, v a * chunkedVcov threshold size rows nUnits a b * v b =
      (rows.map fun r => (∑ a, v a * r a) ^ 2).sum / nUnits := by
    simp only [C47_chunked_eq threshold size hs]
    clear hn
    induction rows with
    | nil => simp
    | cons r rows ih =>
      simp only [List.map_cons, List.sum_cons, add_div, mul_add, add_mul, Finset.sum_add_distrib, ih]
      congr 1
      rw [pow_two, Finset.sum_mul_sum, Finset.sum_div]
      refine Finset.sum_congr rfl fun a _ => ?_
      rw [Finset.sum_div]
      exact Finset.sum_congr rfl fun b _ => by ring
  rw [key]
  apply div_nonneg _ hn.le
  clear key
  induction rows with
  | nil => simp
  | cons r rows ih => simp only [List.map_cons, List.sum_cons]; positivity

example : (0 : ℚ) < 3 ∧ chunkedVcov 1 2 [![(1 : ℚ), -1], ![2, 0], ![3, 1]] 3 0 1 = 2 / 3 := by decide +kernel

/-! ## C48 -/

/-- C48: never fewer partitions than the default. -/
theorem C48_ge_default (nDefault nUnits k target : ℕ) : nDefault ≤ autoTune nDefault nUnits k target := by
  unfold autoTune
  simp only
  split_ifs
  · exact le_rfl
  · exact le_max_left _ _

/-- C48: with the returned number of partitions (one if it is zero) the bytes per partition respect the target. -/
theorem C48_memory_bound (nDefault nUnits k target : ℕ) (ht : 0 < target) :
    (nUnits : ℚ) / (max (autoTune nDefault nUnits k target) 1 : ℕ) * k * 8 ≤ target := by
  unfold autoTune
  simp only
  split_ifs with h
  · exact h
  · set need := ⌈(nUnits : ℚ) * k * 8 / target⌉₊
    have ht' : (0 : ℚ) < target := by exact_mod_cast ht
    have h1 : (nUnits : ℚ) * k * 8 / target ≤ need := Nat.le_ceil _
    have h2 : (need : ℚ) ≤ (max (max nDefault need) 1 : ℕ) := by
      exact_mod_cast (le_max_right nDefault need).trans (le_max_left _ _)
    have h3 : (0 : ℚ) < (max (max nDefault need) 1 : ℕ) := by
      exact_mod_cast lt_of_lt_of_le Nat.one_pos (le_max_right _ _)
    rw [div_le_iff₀ ht'] at h1
    rw [div_mul_eq_mul_div, div_mul_eq_mul_div, div_le_iff₀ h3]
    calc (nUnits : ℚ) * k * 8 ≤ need * target := h1
      _ ≤ (max (max nDefault need) 1 : ℕ) * target := mul_le_mul_of_nonneg_right h2 ht'.le
      _ = _ := mul_comm _ _

/-- C48: more rows never lead to fewer partitions. -/
theorem C48_mono_rows (nDefault n n' k target : ℕ) (h : n ≤ n') :
    autoTune nDefault n k target ≤ autoTune nDefault n' k target := by
  unfold autoTune
  simp only
  have hq : (n : ℚ) ≤ n' := by exact_mod_cast h
  have hk : (0 : ℚ) ≤ k := by positivity
  have hd : (0 : ℚ) < (max nDefault 1 : ℕ) := by exact_mod_cast lt_of_lt_of_le Nat.one_pos (le_max_right _ _)
  have hmono : (n : ℚ) / (max nDefault 1 : ℕ) * k * 8 ≤ (n' : ℚ) / (max nDefault 1 : ℕ) * k * 8 := by
    gcongr
  split_ifs with h1 h2 h2
  · exact le_rfl
  · exact le_max_left _ _
  · exact absurd (hmono.trans h2) h1
  · refine max_le_max le_rfl (Nat.ceil_le_ceil ?_)
    gcongr

/-- C48: the number is the smallest one at least the default that meets the bound. -/
theorem C48_least (nDefault nUnits k target p : ℕ) (ht : 0 < target) (hp : nDefault ≤ p) (hp1 : 1 ≤ p)
    (hb : (nUnits : ℚ) / p * k * 8 ≤ target) : autoTune nDefault nUnits k target ≤ p := by
  unfold autoTune
  simp only
  split_ifs with h
  · exact hp
  · refine max_le hp (Nat.ceil_le.2 ?_)
    have ht' : (0 : ℚ) < target := by exact_mod_cast ht
    have hp' : (0 : ℚ) < p := by exact_mod_cast hp1
    rw [div_mul_eq_mul_div, div_mul_eq_mul_div, div_le_iff₀ hp'] at hb
    rw [div_le_iff₀ ht']
    linarith [mul_comm (target : ℚ) p]

example : autoTune 4 1000 10 1000 = 80 ∧ autoTune 4 10 10 1000 = 4 ∧ (1000 : ℚ) / 80 * 10 * 8 ≤ 1000 := by
  refine ⟨?_, ?_, by norm_num⟩ <;> norm_num [autoTune]

end Verif.Dist
