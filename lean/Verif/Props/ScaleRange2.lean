import Verif.Props.ScaleRange
import Verif.Props.ScaleUnits
import Verif.Props.Hurst
import Verif.Props.MomentumFormulas3
/-!
# C78: a change of units, hurst and rainbow
-/

namespace Traquer.Trend
open FP FloatLit Smooth

section
variable {F : Type} [FloatOps F]

/-- The cumulative deviations of a chunk from its mean. -/
def cumDevs (data : List F) : List F := scanS (fun s x => s + (x - fsum data / flt data.length)) 0 data

theorem hurst_fold_eq (avg : F) (l : List F) (a b c d : F) :
    ((l.foldl (fun (st : F × F × F × F) x => (fmax st.1 (st.2.2.1 + (x - avg)), fmin st.2.1 (st.2.2.1 + (x - avg)), st.2.2.1 + (x - avg),
      st.2.2.2 + (x - avg) * (x - avg))) (a, b, c, d)).1 = (scanS (fun s x => s + (x - avg)) c l).foldl fmax a) ∧
    ((l.foldl (fun (st : F × F × F × F) x => (fmax st.1 (st.2.2.1 + (x - avg)), fmin st.2.1 (st.2.2.1 + (x - avg)), st.2.2.1 + (x - avg),
      st.2.2.2 + (x - avg) * (x - avg))) (a, b, c, d)).2.1 = (scanS (fun s x => s + (x - avg)) c l).foldl fmin b) ∧
    ((l.foldl (fun (st : F × F × F × F) x => (fmax st.1 (st.2.2.1 + (x - avg)), fmin st.2.1 (st.2.2.1 + (x - avg)), st.2.2.1 + (x - avg),
      st.2.2.2 + (x - avg) * (x - avg))) (a, b, c, d)).2.2.2 = l.foldl (fun s x => s + (x - avg) * (x - avg)) d) := by
  induction l generalizing a b c d with
  | nil => exact ⟨rfl, rfl, rfl⟩
  | cons x l ih =>
    simp only [List.foldl_cons]
    obtain ⟨h1, h2, h3⟩ := ih (fmax a (c + (x - avg))) (fmin b (c + (x - avg))) (c + (x - avg)) (d + (x - avg) * (x - avg))
    exact ⟨h1, h2, h3⟩

end

variable {ρ : Rounding} {k : ℝ} [ρ.Scales k] {n : ℤ}

theorem hurst_rs_units {l l' : List (FP ρ)} (h : Each (Scaled k n) l l') (r : WithinMax (cumDevs l)) (r' : WithinMax (cumDevs l')) :
    hurst_rs l = hurst_rs l' := by
  have hm : Scaled k n (fsum l / flt l.length) (fsum l' / flt l'.length) := by
    rw [h.length]
    exact (Scaled.fsum h).div Scaled.lit (by simp)
  by_cases hl : l = []
  · subst hl
    rw [List.forall₂_nil_left_iff.1 h]
  have hc : Each (Scaled k n) (cumDevs l) (cumDevs l') := each_scanS .zero h fun s s' hs x x' hx => hs.add (hx.sub hm)
  have hn : cumDevs l ≠ [] := by
    obtain ⟨x, l, rfl⟩ := List.exists_cons_of_ne_nil hl
    exact List.cons_ne_nil _ _
  have h1 := fold_max_units hc r r' hn
  have h2 := fold_min_units hc r r' hn
  have h3 : Scaled k (n + n) (l.foldl (fun s x => s + (x - fsum l / flt l.length) * (x - fsum l / flt l.length)) 0)
      (l'.foldl (fun s x => s + (x - fsum l' / flt l'.length) * (x - fsum l' / flt l'.length)) 0) :=
    foldl_rel .zero h fun s s' hs x x' hx => hs.add ((hx.sub hm).mul (hx.sub hm) rfl)
  simp only [hurst_rs, (hurst_fold_eq _ _ _ _ _ _).1, (hurst_fold_eq _ _ _ _ _ _).2.1, (hurst_fold_eq _ _ _ _ _ _).2.2]
  refine Alike.eq_of (P := Eq) (fun _ _ h => h) (Alike.bind (Alike.usub h.length rfl) (forall_eq_rel fun j => .answer ?_))
  have e : Scaled k 0 (((cumDevs l).foldl fmax (-maxValue) - (cumDevs l).foldl fmin maxValue) /
      sqrt (l.foldl (fun s x => s + (x - fsum l / flt l.length) * (x - fsum l / flt l.length)) 0 / flt j))
      (((cumDevs l').foldl fmax (-maxValue) - (cumDevs l').foldl fmin maxValue) /
      sqrt (l'.foldl (fun s x => s + (x - fsum l' / flt l'.length) * (x - fsum l' / flt l'.length)) 0 / flt j)) :=
    (h1.sub h2).div ((h3.div (Scaled.lit (x := flt j)) (sub_zero _)).sqrt (by omega) (j := n) (by omega)) (sub_self n)
  exact (Scaled.iff_zero.1 e).symm

omit [ρ.Scales k] in
theorem infix_of_window {α : Type} {w : ℕ} {l u : List α} (h : u ∈ windowsOf w l) : u <:+: l := by
  simp only [windowsOf, List.mem_map] at h
  obtain ⟨i, -, rfl⟩ := h
  exact (List.take_prefix _ _).isInfix.trans (List.drop_suffix _ _).isInfix

/-- The cumulative deviations of every chunk of at most `w` consecutive values stay within the range of `f64`. -/
def ChunksWithin (data : List (FP ρ)) (w : ℕ) : Prop := ∀ chunk, chunk <:+: data → chunk.length ≤ w → WithinMax (cumDevs chunk)

theorem hurst_units {data data' : List (FP ρ)} (h : Each (Scaled k n) data data') (window : ℕ) (minWin : Option ℕ)
    (r : ChunksWithin data window) (r' : ChunksWithin data' window) : hurst data window minWin = hurst data' window minWin := by
  refine Alike.eq_of (P := Eq) (fun _ _ h => h) ?_
  simp only [hurst, Option.bind_eq_bind]
  refine Alike.bind Alike.same (forall_eq_rel fun sizes => Alike.bind Alike.same (forall_eq_rel fun j => ?_))
  rcases Nat.eq_zero_or_pos window with rfl | hw
  · exact .panic
  rw [windows, windows, if_neg (by omega), if_neg (by omega)]
  simp only [Option.bind_some]
  refine Alike.bind (P := Each Eq) (Alike.mapP (each_mem (each_windowsOf (n := window) h)) ?_) fun a a' ha => ?_
  · rintro w w' ⟨hww, m1, m2⟩
    have l1 := windowsOf_mem_length m1
    have l2 := windowsOf_mem_length m2
    refine Alike.bind (P := Each Eq) (Alike.mapP (P := Eq) each_eq (forall_eq_rel fun x => ?_)) fun b b' hb => ?_
    · unfold chunksExact
      rcases Nat.eq_zero_or_pos x with rfl | hx
      · exact .panic
      rw [if_neg (by omega), if_neg (by omega), hww.length]
      simp only [Option.bind_some]
      refine Alike.bind (P := Each Eq) ?_ fun c c' hc => ?_
      · have hcs : Each (fun c c' => hurst_rs c = hurst_rs c') ((List.range (w'.length / x)).map fun i => (w.drop (i * x)).take x)
            ((List.range (w'.length / x)).map fun i => (w'.drop (i * x)).take x) :=
          each_map (P := Eq) each_eq (forall_eq_rel fun i => hurst_rs_units (each_take x (each_drop (i * x) hww))
            (r _ (((List.take_prefix _ _).isInfix.trans (List.drop_suffix _ _).isInfix).trans (infix_of_window m1))
              ((List.length_take_le' _ _).trans ((by simp : (w.drop (i * x)).length ≤ w.length).trans l1.le)))
            (r' _ (((List.take_prefix _ _).isInfix.trans (List.drop_suffix _ _).isInfix).trans (infix_of_window m2))
              ((List.length_take_le' _ _).trans ((by simp : (w'.drop (i * x)).length ≤ w'.length).trans l2.le))))
        exact Alike.mapP hcs fun c c' e => by rw [e]; exact Alike.same
      · have e : c = c' := List.forall₂_eq_eq_eq ▸ hc
        exact .answer (by rw [e]; simp)
    · have e : b = b' := List.forall₂_eq_eq_eq ▸ hb
      exact .answer (by rw [e])
  · have e : a = a' := List.forall₂_eq_eq_eq ▸ ha
    exact .answer (by rw [e])

theorem cumDevs_bound {M c : ℝ} {avg : XF} (ha : avg ⇓ c) (hc : |c| ≤ M) (l : List XF) (hl : Fins l) (hb : ∀ x ∈ vals l, |x| ≤ M)
    (s : XF) (u B : ℝ) (hs : s ⇓ u) (hB : |u| + 2 * l.length * M ≤ B) :
    ∀ y ∈ scanS (fun s x => s + (x - avg)) s l, ∃ v, y ⇓ v ∧ |v| ≤ B := by
  induction l generalizing s u with
  | nil => intro y hy; cases hy
  | cons x l ih =>
    have hx := hb x.val (by simp [vals])
    have hs' : s + (x - avg) ⇓ u + (x.val - c) := is_add hs (is_sub ⟨hl x (by simp), rfl⟩ ha)
    have hM : 0 ≤ M := (abs_nonneg _).trans hc
    have hu : |u + (x.val - c)| ≤ |u| + 2 * M := by
      have h1 := abs_add_le u (x.val - c)
      have h2 := abs_sub x.val c
      linarith
    have hl0 : (0 : ℝ) ≤ l.length := by positivity
    rw [List.length_cons] at hB
    push_cast at hB
    intro y hy
    rcases List.mem_cons.1 (show y ∈ (s + (x - avg)) :: scanS (fun s x => s + (x - avg)) (s + (x - avg)) l from hy) with rfl | hy
    · exact ⟨_, hs', by nlinarith⟩
    · exact ih (fun x hx => hl x (List.mem_cons_of_mem _ hx)) (fun x hx => hb x (by simp only [vals, List.map_cons]; exact List.mem_cons_of_mem _ hx))
        _ _ hs' (by linarith) y hy

/-- Finite data of moderate size. -/
theorem chunksWithin_of_bounded {data : List XF} {M : ℝ} {w : ℕ} (hd : Fins data) (hb : ∀ x ∈ vals data, |x| ≤ M) (hM : 2 * w * M ≤ f64Max) :
    ChunksWithin data w := by
  intro chunk hc hlen x hx
  have hl : Fins chunk := fun x hx => hd x (hc.subset hx)
  have hbl : ∀ x ∈ vals chunk, |x| ≤ M := fun x hx => by
    obtain ⟨y, hy, rfl⟩ := List.mem_map.1 hx
    exact hb _ (List.mem_map_of_mem (hc.subset hy))
  have hne : chunk ≠ [] := by rintro rfl; cases hx
  have npos : (0 : ℝ) < chunk.length := by exact_mod_cast List.length_pos_iff.2 hne
  have lv : (vals chunk).length = chunk.length := by simp [vals]
  have hm : fsum chunk / flt chunk.length ⇓ mean (vals chunk) := (is_div (is_fsum hl) (is_flt _) npos.ne').congr (by rw [mean, lv]; rfl)
  have hv : vals chunk ≠ [] := by rw [ne_eq, ← List.length_eq_zero_iff, lv, List.length_eq_zero_iff]; exact hne
  have mb := within_mean (fun x hx => abs_le.1 (hbl x hx)) hv
  have mb : |mean (vals chunk)| ≤ M := abs_le.2 mb
  have M0 : 0 ≤ M := (abs_nonneg _).trans mb
  have hle : (chunk.length : ℝ) ≤ w := by exact_mod_cast hlen
  obtain ⟨v, h1, h2⟩ := cumDevs_bound hm mb chunk hl hbl 0 0 f64Max is_zero (by rw [abs_zero]; nlinarith) x hx
  have h2 := abs_le.1 h2
  rw [is_le (is_neg is_maxValue) h1, is_le h1 is_maxValue]
  exact ⟨decide_eq_true h2.1, decide_eq_true h2.2⟩

theorem vals_inUnits {k : ℝ} (l : List XF) : vals (inUnits k l) = (vals l).map (k * ·) := by
  simp [vals, inUnits, scaled_val]

theorem fins_inUnits {k : ℝ} {l : List XF} (h : Fins l) : Fins (inUnits k l) := by
  intro x hx
  obtain ⟨y, hy, rfl⟩ := List.mem_map.1 hx
  exact (scaled_is (h y hy)).1

theorem f64Max_ge_pow : (2 : ℝ) ^ (30 : ℤ) ≤ f64Max := by
  have h1 : (2 : ℝ) ^ (30 : ℤ) ≤ 2 ^ (1023 : ℤ) := zpow_le_zpow_right₀ (by norm_num) (by norm_num)
  have h2 : (1 : ℝ) ≤ 2 - 2 ^ (-52 : ℤ) := by norm_num
  have h3 : (0 : ℝ) < 2 ^ (1023 : ℤ) := by positivity
  rw [f64Max]
  generalize (2 : ℝ) ^ (1023 : ℤ) = a at *
  generalize (2 : ℝ) - 2 ^ (-52 : ℤ) = b at *
  nlinarith

/-- The hypotheses of `hurst_units`. -/
example (data : List XF) (hd : Fins data) (hb : ∀ x ∈ vals data, |x| ≤ 1000) :
    hurst data 100 none = hurst (inUnits 30 data) 100 none :=
  have := scales_exact (k := 30) (by norm_num)
  have hf := f64Max_ge_pow
  hurst_units (each_inUnits data) 100 none (chunksWithin_of_bounded hd hb (by norm_num at hf ⊢; linarith)) (chunksWithin_of_bounded (M := 30000) (fins_inUnits hd)
    (by
      rw [vals_inUnits]
      intro x hx
      obtain ⟨y, hy, rfl⟩ := List.mem_map.1 hx
      have := hb y hy
      rw [abs_mul, abs_of_pos (by norm_num)]
      linarith) (by norm_num at hf ⊢; linarith))

end Traquer.Trend

namespace Traquer.Momentum
open FP FloatLit Smooth

theorem mean_map_mul (k : ℝ) (l : List ℝ) : mean (l.map (k * ·)) = k * mean l := by
  rw [mean, mean, List.length_map, List.sum_map_mul_left, List.map_id', mul_div_assoc]

theorem bar_map_mul (k : ℝ) (l : List ℝ) (i : ℕ) : bar (l.map (k * ·)) i = k * bar l i := by
  rw [bar, bar, List.getD_eq_getElem?_getD, List.getD_eq_getElem?_getD, List.getElem?_map]
  cases l[i]? <;> simp

theorem recent_map_mul (k : ℝ) (l : List ℝ) (w i : ℕ) : recent (l.map (k * ·)) w i = (recent l w i).map (k * ·) := by
  simp only [recent, List.map_drop, List.map_take]

theorem smaIter_mul (k : ℝ) (v : ℕ → ℝ) (w j i : ℕ) : smaIter w (fun i => k * v i) j i = k * smaIter w v j i := by
  induction j generalizing i with
  | zero => rfl
  | succ j ih =>
    show mean (lastOf (smaIter w (fun i => k * v i) j) w i) = k * mean (lastOf (smaIter w v j) w i)
    rw [← mean_map_mul]
    simp only [lastOf, List.map_map]
    congr 1
    exact List.map_congr_left fun t _ => ih _

theorem rainbowLines_mul (k : ℝ) (x : List ℝ) (w i : ℕ) : rainbowLines (x.map (k * ·)) w i = (rainbowLines x w i).map (k * ·) := by
  simp only [rainbowLines, List.map_map]
  refine List.map_congr_left fun t _ => ?_
  rw [show bar (x.map (k * ·)) = fun i => k * bar x i from funext (bar_map_mul k x), smaIter_mul]
  rfl

theorem maxOf_map_mul {k : ℝ} (hk : 0 < k) {l : List ℝ} (hl : l ≠ []) : maxOf (l.map (k * ·)) = k * maxOf l := by
  refine maxOf_eq (List.mem_map_of_mem (maxOf_mem hl)) fun x hx => ?_
  obtain ⟨y, hy, rfl⟩ := List.mem_map.1 hx
  exact mul_le_mul_of_nonneg_left (le_maxOf hy) hk.le

theorem minOf_map_mul {k : ℝ} (hk : 0 < k) {l : List ℝ} (hl : l ≠ []) : minOf (l.map (k * ·)) = k * minOf l := by
  refine minOf_eq (List.mem_map_of_mem (minOf_mem hl)) fun x hx => ?_
  obtain ⟨y, hy, rfl⟩ := List.mem_map.1 hx
  exact mul_le_mul_of_nonneg_left (minOf_le hy) hk.le

/-- C78: `rainbow` measures in percent, so long as the range of the prices over the lookback is at least the constant 0.000001 in both
units. -/
theorem rainbow_units {k : ℝ} (hk : 0 < k) (data : List XF) (w lookback : ℕ) (hw : 1 ≤ w) (hn : w ≤ data.length + 1) (hlb : 1 ≤ lookback)
    (hkb : lookback ≤ (w - 1) * 10 + 1) (hk' : (w - 1) * 10 ≤ data.length) (hd : Fins data)
    (hb : ∀ x ∈ vals data, |x| ≤ f64Max ∧ k * |x| ≤ f64Max)
    (hr : ∀ i, (w - 1) * 10 ≤ i → i < data.length →
      0.000001 ≤ maxOf (recent (vals data) lookback i) - minOf (recent (vals data) lookback i) ∧
      0.000001 ≤ k * (maxOf (recent (vals data) lookback i) - minOf (recent (vals data) lookback i))) :
    ∃ osc band : ℕ → ℝ, Items data.length ((w - 1) * 10) (fun i y => y.1 ⇓ osc i ∧ y.2 ⇓ band i) (rainbow data w lookback) ∧
      Items data.length ((w - 1) * 10) (fun i y => y.1 ⇓ osc i ∧ y.2 ⇓ band i) (rainbow (inUnits k data) w lookback) := by
  have h1 := rainbow_reports data w lookback hw hn hlb hkb hk' hd fun x hx => (hb x hx).1
  have hl : (inUnits k data).length = data.length := List.length_map ..
  have h2 := rainbow_reports (inUnits k data) w lookback hw (by rwa [hl]) hlb hkb (by rwa [hl]) (Trend.fins_inUnits hd) (by
    rw [Trend.vals_inUnits]
    intro x hx
    obtain ⟨y, hy, rfl⟩ := List.mem_map.1 hx
    rw [abs_mul, abs_of_pos hk]
    exact (hb y hy).2)
  refine ⟨_, _, h1, ?_⟩
  rw [hl] at h2
  refine h2.mono fun i y hi hin hy => ?_
  have nr : recent (vals data) lookback i ≠ [] := by
    have : (recent (vals data) lookback i).length = lookback := recent_length (by omega) (by simpa [vals] using hin)
    intro e; rw [e] at this; simp at this; omega
  have nl : rainbowLines (vals data) w i ≠ [] := by simp [rainbowLines]
  obtain ⟨r1, r2⟩ := hr i hi hin
  simp only [Trend.vals_inUnits, recent_map_mul, rainbowLines_mul, bar_map_mul, mean_map_mul, maxOf_map_mul hk nr, minOf_map_mul hk nr,
    maxOf_map_mul hk nl, minOf_map_mul hk nl, ← mul_sub] at hy
  rw [max_eq_left r2] at hy
  rw [max_eq_left r1]
  have p1 : maxOf (recent (vals data) lookback i) - minOf (recent (vals data) lookback i) ≠ 0 := by
    have : (0 : ℝ) < 0.000001 := by norm_num
    linarith
  refine ⟨hy.1.congr ?_, hy.2.congr ?_⟩ <;> field_simp

/-- Prices that rise by one unit per bar, 25 bars. -/
noncomputable def rise25 : List XF := (List.range 25).map fun n : ℕ => fin ((n : ℝ) + 1)

theorem vals_rise25 : vals rise25 = (List.range 25).map fun n : ℕ => (n : ℝ) + 1 := by
  simp [vals, rise25]

theorem recent_rise25 (i : ℕ) (h1 : 10 ≤ i) (h2 : i < 25) : (i : ℝ) + 1 ∈ recent (vals rise25) 5 i ∧ (i : ℝ) ∈ recent (vals rise25) 5 i := by
  rw [vals_rise25]
  interval_cases i <;> simp [recent, List.range_succ] <;> norm_num

/-- The hypotheses of `rainbow_units`: another currency. -/
example : ∃ osc band : ℕ → ℝ, Items 25 10 (fun i y => y.1 ⇓ osc i ∧ y.2 ⇓ band i) (rainbow rise25 2 5) ∧
    Items 25 10 (fun i y => y.1 ⇓ osc i ∧ y.2 ⇓ band i) (rainbow (inUnits 30 rise25) 2 5) := by
  have hl : rise25.length = 25 := by simp [rise25]
  have := rainbow_units (k := 30) (by norm_num) rise25 2 5 (by decide) (by rw [hl]; decide) (by decide) (by decide) (by rw [hl]; decide)
    (fun x hx => by obtain ⟨n, -, rfl⟩ := List.mem_map.1 hx; trivial)
    (by
      rw [vals_rise25]
      intro x hx
      obtain ⟨n, hn, rfl⟩ := List.mem_map.1 hx
      have hn : (n : ℝ) + 1 ≤ 25 := by exact_mod_cast List.mem_range.1 hn
      have h0 : (0 : ℝ) ≤ n := by positivity
      have := f64Max_ge
      rw [abs_of_nonneg (by linarith)]
      constructor <;> linarith)
    (by
      intro i h1 h2
      rw [hl] at h2
      obtain ⟨a, b⟩ := recent_rise25 i h1 h2
      have := le_maxOf a
      have := minOf_le b
      constructor <;> norm_num <;> linarith)
  rwa [hl] at this

end Traquer.Momentum
