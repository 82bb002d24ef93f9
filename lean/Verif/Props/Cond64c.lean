import Verif.Props.Cond64
import Verif.Props.MomentumFormulas2
import Verif.Props.VolatilityFormulas
import Verif.Props.Percent
/-! C91, continued: `tii`, `cci`, `vhf` and `cvi`, whose denominators are sums or averages of computed differences. -/

namespace Traquer
open FP FloatLit

variable {M : ℝ} {n k w : ℕ} {v : ℕ → ℝ} {c e : ℝ} {m : List F64}

theorem NearS.in_window (h : NearS M n k v c e m) {i : ℕ} (h1 : k + w ≤ i + 1) {j : ℕ} {x : F64} (hj : (recent m w i)[j]? = some x) :
    Nearly M x (v (i + 1 - w + j)) c e := by
  have hj' : j < w := by
    have := (List.getElem?_eq_some_iff.1 hj).1
    simp [recent] at this
    omega
  rw [recent, List.getElem?_take_of_lt hj', List.getElem?_drop] at hj
  exact h.at' hj (by omega)

/-- The sum over a window of an approximately computed series. -/
theorem NearS.total (h : NearS M n k v c e m) (hM : tiny64 ≤ M) (hB : M ≤ 2 ^ 800) (he : e ≤ 2 ^ 53) (hc : c ≤ 2 ^ 10) (c0 : 0 ≤ c)
    (h32 : w < 2 ^ 32) {i : ℕ} (h1 : k + w ≤ i + 1) (h2 : i < n) :
    Nearly (w * M) (fsum (recent m w i)) (lastOf v w i).sum c (e + (w + 1) * (c + 1)) :=
  near_total hM hB (recent_length (by omega) (by rw [h.length]; exact h2)) (fun j x hj => h.in_window h1 hj) he hc c0 h32

/-- The average over a window of an approximately computed series. -/
theorem NearS.average (h : NearS M n k v c e m) (hM : tiny64 ≤ M) (hB : M ≤ 2 ^ 800) (he : e ≤ 2 ^ 53) (hc : c ≤ 2 ^ 10) (c0 : 0 ≤ c)
    (hw : 1 ≤ w) (h32 : w < 2 ^ 32) {i : ℕ} (h1 : k + w ≤ i + 1) (h2 : i < n) :
    Nearly M (fsum (recent m w i) / flt w) (mean (lastOf v w i)) c (e + (w + 5) * (c + 1)) :=
  near_average hM hB (recent_length (by omega) (by rw [h.length]; exact h2)) (fun j x hj => h.in_window h1 hj) he hc c0 hw h32

/-- A bound of `2 M` is a bound of one unit at twice the scale. -/
theorem Nearly.double {x : F64} {a : ℝ} (h : Nearly M x a 2 e) : Nearly (2 * M) x a 1 (e / 2) where
  approx := h.approx.mono (by rw [show e / 2 * unit64 * (2 * M) = e * unit64 * M by ring])
  bound := by have := h.bound; linarith

theorem sized_window (hw : 1 ≤ w) (h32 : w < 2 ^ 32) (hM : tiny64 ≤ M) (hB : M ≤ 2 ^ 800) : Sized (w * M) :=
  Smooth.sized_mul hM hB (by exact_mod_cast hw) (by
    have : (w : ℝ) < 2 ^ 32 := by exact_mod_cast h32
    linarith)

namespace Momentum

/-- C91: the trend intensity index, in terms of the highest price times the window over the sum of the deviations. -/
theorem tii_conditioned (data : List F64) (w : ℕ) (hw : 1 ≤ w) (h32 : w < 2 ^ 31) (hn : w ≤ data.length + 1) (hM : tiny64 ≤ M)
    (hB : M ≤ 2 ^ 800) (hd : Bounded M data) :
    ReportsP data.length ((w + 1) / 2 - 1) (fun i =>
      let up := (lastOf (fun j => max (deviation (bar (vals data)) w j) 0) ((w + 1) / 2) i).sum
      let down := (lastOf (fun j => max (-deviation (bar (vals data)) w j) 0) ((w + 1) / 2) i).sum
      QuotWithin (((w + 1) / 2 : ℕ) * M) (600 * (w + 3 * ((w + 1) / 2 : ℕ)) + 9216) 1 (100 * up) (up + down)) (tii data w) := by
  have hS := Smooth.sized_of hM hB
  have hw2 : 1 ≤ (w + 1) / 2 := by omega
  have w32 : (w : ℝ) < 2 ^ 31 := by exact_mod_cast h32
  have v32 : (((w + 1) / 2 : ℕ) : ℝ) < 2 ^ 31 := by exact_mod_cast (show (w + 1) / 2 < 2 ^ 31 by omega)
  have w0 : (0 : ℝ) ≤ w := by positivity
  have v0 : (0 : ℝ) ≤ ((w + 1) / 2 : ℕ) := by positivity
  have hSw := sized_window hw2 (by omega) hM hB
  obtain ⟨m, em, rm⟩ := Smooth.sma_near data w hw (by omega) hn hM hB hd
  have lm := rm.length
  set devs : List (F64 × F64) := (m.zip data).map fun (avg, actual) =>
    let dev := actual - avg
    (fmax dev 0, fabs (fmin dev 0)) with ed
  have ld : devs.length = data.length := by simp [ed]; omega
  have zero : Nearly M (0 : F64) 0 2 (w + 9) :=
    (Nearly.exact (c := 2) isZero (by simpa using mul_nonneg zero_le_two hS.nonneg)).mono hS le_rfl (by linarith)
  have dev : ∀ i p, devs[i]? = some p → Nearly M p.1 (max (deviation (bar (vals data)) w i) 0) 2 (w + 9) ∧
      Nearly M p.2 (max (-deviation (bar (vals data)) w i) 0) 2 (w + 9) := by
    intro i p hp
    rw [ed, List.getElem?_map] at hp
    obtain ⟨⟨a, x⟩, e, rfl⟩ := Option.map_eq_some_iff.1 hp
    obtain ⟨e1, e2⟩ := List.getElem?_zip_eq_some.1 e
    have neg : ∀ r : ℝ, |min r 0| = max (-r) 0 := fun r => by rw [abs_of_nonpos (min_le_right _ _), ← max_neg_neg, neg_zero]
    by_cases hk : w ≤ i + 1
    · have ha := rm.at' (y := a) e1 (by omega)
      have hs := ((near_bar hd e2).sub hS ha (by linarith) (by norm_num)).mono hS (c' := 2) (k' := w + 9) (by norm_num) (by linarith)
      simp only [deviation, if_pos hk]
      refine ⟨Nearly.fmax hS hs zero, ?_⟩
      have := (Nearly.fmin hS hs zero).fabs
      rwa [neg] at this
    · obtain rfl := rm.at_nan (y := a) e1 (by omega)
      simp only [deviation, if_neg hk]
      have en : x - (Traquer.nan : F64) = Traquer.nan := isNaN_iff.1 (by have : Traquer.isNaN (nan : F64) = true := rfl; nanp)
      rw [en]
      have e1 : fmax (Traquer.nan : F64) 0 = 0 := rfl
      have e2 : fmin (Traquer.nan : F64) 0 = 0 := rfl
      rw [e1, e2, neg_zero, max_self]
      have := zero.fabs
      rw [abs_zero] at this
      exact ⟨zero, this⟩
  have r1 : NearS M data.length 0 (fun j => max (deviation (bar (vals data)) w j) 0) 2 (w + 9) (devs.map Prod.fst) :=
    reportsP_map ld (fun i _ _ hi => by omega) fun i p hp _ => (dev i p hp).1
  have r2 : NearS M data.length 0 (fun j => max (-deviation (bar (vals data)) w j) 0) 2 (w + 9) (devs.map Prod.snd) :=
    reportsP_map ld (fun i _ _ hi => by omega) fun i p hp _ => (dev i p hp).2
  simp only [tii, em, divCeil_two, usub_of_le hw2, windows_eq _ hw2, Option.bind_eq_bind, Option.bind_some, ← ed]
  refine reportsP_after_nans (by simp; omega) fun i hi => ⟨_, getElem?_of_lt hi, ?_⟩
  have hg := getElem?_of_lt hi
  generalize (List.map _ _)[i] = y at hg ⊢
  rw [List.getElem?_map] at hg
  obtain ⟨win, e, rfl⟩ := Option.map_eq_some_iff.1 hg
  obtain ⟨rfl, hi⟩ := windowsOf_at hw2 e
  have t1 := r1.total (w := (w + 1) / 2) (i := i + (w + 1) / 2 - 1) hM hB (by linarith) (by norm_num) (by norm_num) (by omega) (by omega) (by omega)
  have t2 := r2.total (w := (w + 1) / 2) (i := i + (w + 1) / 2 - 1) hM hB (by linarith) (by norm_num) (by norm_num) (by omega) (by omega) (by omega)
  rw [recent_map _ _ _] at t1 t2
  simp only [sumPair_fst]
  rw [show i + (w + 1) / 2 - 1 = (w + 1) / 2 - 1 + i by omega] at t1 t2 ⊢
  have nn : ∀ (g : ℕ → ℝ), 0 ≤ (lastOf (fun j => max (g j) 0) ((w + 1) / 2) ((w + 1) / 2 - 1 + i)).sum := fun g =>
    List.sum_nonneg fun x hx => by obtain ⟨j, -, rfl⟩ := List.mem_map.1 hx; exact le_max_right _ _
  have n1 := nn (deviation (bar (vals data)) w)
  have n2 := nn (fun j => -deviation (bar (vals data)) w j)
  generalize (((w + 1) / 2 : ℕ) : ℝ) = q at *
  refine Nearly.quot1 hSw (Nearly.smul hSw (isLit 100 (by norm_num)) t1 (by norm_num; linarith) (by norm_num))
    (t1.add hSw t2 (by linarith) (by norm_num)) (Q := 100) ?_ (by norm_num) (by norm_num) (by norm_num; linarith)
  rw [abs_of_nonneg (add_nonneg n1 n2), abs_of_nonneg (mul_nonneg (by norm_num) n1)]
  push_cast
  linarith

/-- C91: the commodity channel index, in terms of the highest price over 0.015 mean absolute deviations. -/
theorem cci_conditioned (high low close : List F64) (w : ℕ) (hl : low.length = high.length) (hc : close.length = high.length) (hw : 1 ≤ w)
    (h32 : w < 2 ^ 32) (hn : w ≤ high.length + 1) (hM : tiny64 ≤ M) (hB : M ≤ 2 ^ 800) (bh : Bounded M high) (bl : Bounded M low)
    (bc : Bounded M close) : ReportsP high.length (w - 1) (fun i =>
      let win := lastOf (typicalAt (vals high) (vals low) (vals close)) w i
      QuotWithin M (21 * w + 193) 2 (typicalAt (vals high) (vals low) (vals close) i - mean win) (0.015 * meanAbsDev win))
      (cci high low close w) := by
  have hS := Smooth.sized_of hM hB
  have w32 : (w : ℝ) < 2 ^ 32 := by exact_mod_cast h32
  have w0 : (0 : ℝ) ≤ w := by positivity
  have r := Volatility.typical_near high low close hl hc hM hB bh bl bc
  have lt := r.length
  run_model [cci]
  have := reportsP_mapP_windows (data := (zip3 high low close).map fun (h, l, c) => (h + l + c) / 3) (w := w) (f := fun l =>
    l.getLast?.bind fun last => some ((last - fsum l / flt w) /
      (0.015 * (l.foldl (fun acc x => acc + fabs (x - fsum l / flt w)) 0 / flt w)))) (P := fun i =>
      QuotWithin M (21 * w + 193) 2
        (typicalAt (vals high) (vals low) (vals close) i - mean (lastOf (typicalAt (vals high) (vals low) (vals close)) w i))
        (0.015 * meanAbsDev (lastOf (typicalAt (vals high) (vals low) (vals close)) w i))) hw (by rw [lt]; exact hn) (by
    intro i h1 h2
    rw [lt] at h2
    have av := r.average (w := w) (i := i) hM hB (by norm_num) (by norm_num) (by norm_num) hw h32 (by omega) h2
    have ll := recent_length (l := (zip3 high low close).map fun (h, l, c) => (h + l + c) / 3) (w := w) (i := i) h1 (by rw [lt]; exact h2)
    have el := fun j x => r.in_window (w := w) (i := i) (j := j) (x := x) (by omega)
    have mm : List.map (fun x : F64 × F64 × F64 => (x.1 + x.2.1 + x.2.2) / 3) (zip3 high low close) =
      (zip3 high low close).map fun (h, l, c) => (h + l + c) / 3 := rfl
    rw [mm] at av el
    generalize recent ((zip3 high low close).map fun (h, l, c) => (h + l + c) / 3) w i = l at av ll el
    change Nearly M _ (mean (lastOf (typicalAt (vals high) (vals low) (vals close)) w i)) _ _ at av
    change ∀ j x, _ → Nearly M x (typicalAt (vals high) (vals low) (vals close) (i + 1 - w + j)) 1 6 at el
    generalize fsum l / flt w = a at av ⊢
    generalize hmu : mean (lastOf (typicalAt (vals high) (vals low) (vals close)) w i) = mu at av ⊢
    have fold : l.foldl (fun acc x => acc + fabs (x - a)) 0 = fsum (l.map fun x => fabs (x - a)) := by
      rw [fsum, List.foldl_map]
    have dv := near_average (l := l.map fun x => fabs (x - a)) (g := fun j => |typicalAt (vals high) (vals low) (vals close) (i + 1 - w + j) - mu|)
      (n := w) (c := 2) (k := 2 * w + 26) hM hB (by simpa using ll) (by
        intro j x hj
        rw [List.getElem?_map] at hj
        obtain ⟨x, e, rfl⟩ := Option.map_eq_some_iff.1 hj
        exact (((el j x e).sub hS av (by linarith) (by norm_num)).mono hS (by norm_num) (by linarith)).fabs)
      (by linarith) (by norm_num) (by norm_num) hw h32
    rw [fold]
    have em : mean ((List.range w).map fun j => |typicalAt (vals high) (vals low) (vals close) (i + 1 - w + j) - mu|) =
        meanAbsDev (lastOf (typicalAt (vals high) (vals low) (vals close)) w i) := by
      rw [meanAbsDev, hmu, lastOf, List.map_map]
      rfl
    rw [em] at dv
    obtain ⟨x, hx⟩ : ∃ x, l.getLast? = some x := by
      have : l ≠ [] := by rintro rfl; simp at ll; omega
      exact ⟨_, List.getLast?_eq_some_getLast this⟩
    have hx' : l[w - 1]? = some x := by rw [← hx, List.getLast?_eq_getElem?, ll]
    have lx := el _ _ hx'
    rw [show i + 1 - w + (w - 1) = i by omega] at lx
    have lit : Nearly 1 (0.015 : F64) (0.015 : ℝ) 0.015 (0 + 0.015 + 2) :=
      Nearly.of_rounds sized_one ⟨false, rfl⟩ (by norm_num) (by norm_num) (by norm_num) (by norm_num)
    have den := Nearly.mul sized_one hS (by rwa [one_mul]) lit dv (by norm_num) (by norm_num; linarith) (by norm_num)
    rw [one_mul] at den
    refine ⟨_, by rw [hx]; rfl, Nearly.quot2 hS (lx.sub hS av (by linarith) (by norm_num)) den (by norm_num) (by norm_num) (by linarith) ?_⟩
    norm_num
    linarith)
  rw [lt] at this
  exact this

end Momentum

namespace Volatility
open Momentum

/-- C91: the vertical horizontal filter, in terms of the highest price times the window over the distance the close travelled. -/
theorem vhf_conditioned (high low close : List F64) (w : ℕ) (hl : low.length = high.length) (hc : close.length = high.length)
    (hw : 1 ≤ w) (h32 : w < 2 ^ 32) (hn : w ≤ high.length) (hM : tiny64 ≤ M) (hB : M ≤ 2 ^ 800) (bh : Bounded M high) (bl : Bounded M low)
    (bc : Bounded M close) : ReportsP high.length w
      (fun i => QuotWithin (w * M) (12 * w + 60) 2 (maxOf (recent (vals high) w i) - minOf (recent (vals low) w i))
        (lastOf (fun j => |bar (vals close) j - bar (vals close) (j - 1)|) w i).sum) (vhf high low close w) := by
  have hS := Smooth.sized_of hM hB
  have w32 : (w : ℝ) < 2 ^ 32 := by exact_mod_cast h32
  have w1 : (1 : ℝ) ≤ w := by exact_mod_cast hw
  have hSw := sized_window hw h32 hM hB
  have r := changes_near close hM hB bc (by omega)
  have base : NearS M close.length 1 (fun j => |bar (vals close) j - bar (vals close) (j - 1)|) 2 4
      (nans 1 ++ (pairs close).map fun (prev, curr) => fabs (curr - prev)) := by
    refine reportsP_after_nans (by simp; omega) fun i hi => ⟨_, getElem?_of_lt hi, ?_⟩
    have hg := getElem?_of_lt hi
    generalize (List.map _ _)[i] = y at hg ⊢
    rw [List.getElem?_map] at hg
    obtain ⟨⟨a, b⟩, hp, rfl⟩ := Option.map_eq_some_iff.1 hg
    have := r.at' (i := 1 + i) (y := b - a) (by
      rw [List.getElem?_append_right (by simp), nans_length, Nat.add_sub_cancel_left, List.getElem?_map, hp]; rfl) (by omega)
    exact this.fabs
  run_model [vhf]
  refine reportsP_after_nans (by simp [hl, hc]; omega) fun i hi => ⟨_, getElem?_of_lt hi, ?_⟩
  have hg := getElem?_of_lt hi
  generalize (List.map _ _)[i] = y at hg ⊢
  rw [List.getElem?_map] at hg
  obtain ⟨⟨d, h, l⟩, hz, rfl⟩ := Option.map_eq_some_iff.1 hg
  rw [zip3_getElem?] at hz
  simp only [List.getElem?_drop] at hz
  obtain ⟨rfl, ld⟩ := windowsOf_at hw hz.1
  obtain ⟨rfl, l2⟩ := windowsOf_at hw hz.2.1
  obtain ⟨rfl, l3⟩ := windowsOf_at hw hz.2.2
  have e : 1 + i + w - 1 = w + i := by omega
  rw [e]
  have den := base.total (w := w) (i := w + i) hM hB (by norm_num) (by norm_num) (by norm_num) h32 (by omega) (by omega)
  have ew : recent (nans 1 ++ (pairs close).map fun (prev, curr) => fabs (curr - prev)) w (w + i) =
      recent ((pairs close).map fun (prev, curr) => fabs (curr - prev)) w (i + w - 1) := by
    rw [recent, recent, show w + i + 1 - w = i + 1 by omega, show i + w - 1 + 1 - w = i by omega]
    rfl
  rw [ew] at den
  have fh : Fins high := fun x hx => let ⟨_, h, _⟩ := bh x hx; h.1
  have fl : Fins low := fun x hx => let ⟨_, h, _⟩ := bl x hx; h.1
  have nemax : ∀ {l : List F64}, w + i < l.length → recent l w (w + i) ≠ [] := fun h =>
    List.ne_nil_of_length_pos (by rw [recent_length (by omega) h]; omega)
  have mx := foldMax_is (fh.recent w (w + i)) (nemax (by omega))
  have mn := foldMin_is (fl.recent w (w + i)) (nemax (by omega))
  rw [recent_vals] at mx mn
  have mem : ∀ {l : List F64} {r : ℝ}, Bounded M l → r ∈ vals (recent l w (w + i)) → |r| ≤ 1 * M := by
    intro l r hb hr
    obtain ⟨x, hx, rfl⟩ := List.mem_map.1 hr
    obtain ⟨r, h, hr⟩ := hb x (List.mem_of_mem_drop (List.mem_of_mem_take hx))
    rw [h.2, one_mul]
    exact hr
  have bmx : |maxOf (recent (vals high) w (w + i))| ≤ 1 * M := mem bh (by
    rw [recent_vals]; exact maxOf_mem (by rw [← recent_vals]; exact fun h => nemax (l := high) (by omega) (List.map_eq_nil_iff.1 h)))
  have bmn : |minOf (recent (vals low) w (w + i))| ≤ 1 * M := mem bl (by
    rw [recent_vals]; exact minOf_mem (by rw [← recent_vals]; exact fun h => nemax (l := low) (by omega) (List.map_eq_nil_iff.1 h)))
  have num := ((Nearly.exact mx bmx).sub hS (Nearly.exact mn bmn) (by norm_num) (by norm_num)).coarser hS
    (le_mul_of_one_le_left hS.nonneg w1)
  exact Nearly.quot2 hSw num den (by norm_num) (by norm_num) (by linarith) (by norm_num; linarith)

/-- C91: Chaikin's volatility, in terms of twice the highest price over the average range some bars earlier. -/
theorem cvi_conditioned (high low : List F64) (w roc : ℕ) (hl : low.length = high.length) (hw : 1 ≤ w) (h32 : w < 2 ^ 32)
    (hn : roc + w ≤ high.length) (hM : tiny64 ≤ M) (hB : M ≤ 2 ^ 800) (bh : Bounded M high) (bl : Bounded M low) :
    ReportsP high.length (roc + (w - 1)) (fun i =>
      let range := fun i => bar (vals high) i - bar (vals low) i
      QuotWithin (2 * M) (8000 * w + 9802) 2 (100 * (ewmaFrom 0 w range i - ewmaFrom 0 w range (i - roc))) (ewmaFrom 0 w range (i - roc)))
      (cvi high low w roc) := by
  have hS := Smooth.sized_of hM hB
  have hS2 : Sized (2 * M) := Smooth.sized_mul hM hB (by norm_num) (by norm_num)
  have w32 : (w : ℝ) < 2 ^ 32 := by exact_mod_cast h32
  have w0 : (0 : ℝ) ≤ w := by positivity
  have rr : NearS (2 * M) high.length 0 (fun i => bar (vals high) i - bar (vals low) i) 1 2 ((high.zip low).map fun (h, l) => h - l) := by
    refine reportsP_map (by simp [hl]) (fun i _ _ hi => by omega) ?_
    rintro i ⟨x, y⟩ hp -
    obtain ⟨e1, e2⟩ := List.getElem?_zip_eq_some.1 hp
    have := ((near_bar bh e1).sub hS (near_bar bl e2) (by norm_num) (by norm_num)).mono hS (c' := 2) (k' := 4) (by norm_num) (by norm_num)
    have := this.double
    norm_num at this
    exact this
  obtain ⟨m, -, em, rm, lm⟩ := rr.ewma hS2 (by norm_num) (by norm_num) hw (by omega) (by omega) (by norm_num; linarith)
  rw [List.drop_zero] at em
  simp only [nans, List.replicate_zero, List.nil_append, Nat.zero_add] at rm
  simp only [cvi, em, windows_eq m (show 1 ≤ roc + 1 by omega), Option.bind_eq_bind, Option.bind_some]
  have lm : m.length = high.length := by omega
  have key : ∀ x ∈ windowsOf (roc + 1) m, (fun (w : List F64) => w.getLast?.bind fun last => w.head?.bind fun first => some (100 * (last / first - 1))) x =
      some ((fun x => 100 * (x.getLast?.getD 0 / x.head?.getD 0 - 1)) x) := by
    intro x hx
    obtain ⟨i, hi⟩ := List.mem_iff_getElem?.1 hx
    obtain ⟨rfl, li⟩ := windowsOf_at (by omega) hi
    have hlen : (recent m (roc + 1) (i + (roc + 1) - 1)).length = roc + 1 := recent_length (by omega) (by omega)
    simp only [List.getLast?_eq_getElem?, List.head?_eq_getElem?]
    rw [getElem?_of_lt (show 0 < (recent m (roc + 1) (i + (roc + 1) - 1)).length by omega),
      getElem?_of_lt (show (recent m (roc + 1) (i + (roc + 1) - 1)).length - 1 < (recent m (roc + 1) (i + (roc + 1) - 1)).length by omega)]
    rfl
  rw [mapP_eq_map key]
  simp only [Option.bind_some]
  have elt : ∀ i, roc ≤ i → i < high.length → ∃ a b, m[i]? = some a ∧ m[i - roc]? = some b ∧
      (nans roc ++ (windowsOf (roc + 1) m).map fun x => 100 * (x.getLast?.getD 0 / x.head?.getD 0 - 1))[i]? = some (100 * (a / b - 1)) := by
    intro i hr hin
    have ea := getElem?_of_lt (show i < m.length by omega)
    have eb := getElem?_of_lt (show i - roc < m.length by omega)
    refine ⟨_, _, ea, eb, ?_⟩
    rw [List.getElem?_append_right (by simpa using hr), nans_length, List.getElem?_map]
    have e := windowsOf_recent (l := m) (w := roc + 1) (i := i) (by omega) (by omega) (by omega)
    rw [show i - (roc + 1 - 1) = i - roc by omega] at e
    obtain ⟨e1, e2⟩ := recent_ends (l := m) hr (by omega)
    rw [e, Option.map_some, e1, e2, ea, eb]
    rfl
  refine ⟨_, rfl, by simp; omega, fun i hi hin => ?_, fun i hi hin => ?_⟩
  · by_cases hr : i < roc
    · rw [List.getElem?_append_left (by simpa using hr), nans, List.getElem?_replicate, if_pos hr]
    · obtain ⟨a, b, ea, eb, e⟩ := elt i (by omega) hin
      have := rm.at_nan (y := b) eb (by omega)
      subst this
      rw [e]
      exact congrArg some (isNaN_iff.1 (by have : Traquer.isNaN (nan : F64) = true := rfl; nanp))
  · obtain ⟨a, b, ea, eb, e⟩ := elt i (by omega) hin
    refine ⟨_, e, ?_⟩
    exact Nearly.percent hS2 (rm.at' (y := a) ea (by omega)) (rm.at' (y := b) eb (by omega)) (by linarith)

section Examples

local notation "exH" => ([2, 6, 5, 9] : List F64)
local notation "exL" => ([1, 4, 2, 6] : List F64)
local notation "exC" => ([1, 5, 3, 7] : List F64)
private theorem exM : tiny64 ≤ 9 := Volatility.bands_example.2.2.2.1
private theorem exB : (9 : ℝ) ≤ 2 ^ 800 := Volatility.bands_example.2.2.2.2
private theorem exh : Bounded 9 exH := Volatility.bands_example.1
private theorem exl : Bounded 9 exL := Volatility.bands_example.2.1
private theorem exc : Bounded 9 exC := Volatility.bands_example.2.2.1

/-! With `M = 9` and a window of 2 or 3 every hypothesis of the theorems of this chapter is met. -/
example := tii_conditioned exC 3 (by norm_num) (by norm_num) (by simp) exM exB exc
example := cci_conditioned exH exL exC 2 rfl rfl (by norm_num) (by norm_num) (by simp) exM exB exh exl exc
example := vhf_conditioned exH exL exC 2 rfl rfl (by norm_num) (by norm_num) (by simp) exM exB exh exl exc
example := cvi_conditioned exH exL 2 1 rfl (by norm_num) (by norm_num) (by simp) exM exB exh exl

/-- The condition of `QuotWithin` is met too: the third `vhf` of these bars is within `10^-10` of `2 / 3`. -/
example : ∃ r y, vhf exH exL exC 2 = some r ∧ r[2]? = some y ∧ Approx y (2 / 3) (10 ^ (-10 : ℤ)) := by
  obtain ⟨r, er, -, -, h⟩ := vhf_conditioned exH exL exC 2 rfl rfl (by norm_num) (by norm_num) (by simp) exM exB exh exl exc
  obtain ⟨y, hy, q⟩ := h 2 (by norm_num) (by simp)
  have vc : vals exC = [1, 5, 3, 7] := by
    simp only [vals, List.map_cons, List.map_nil, (isLit (ρ := Rounding.binary64) 5 (by norm_num)).2, (isLit (ρ := Rounding.binary64) 3 (by norm_num)).2,
      (isLit (ρ := Rounding.binary64) 7 (by norm_num)).2, (isOne (ρ := Rounding.binary64)).2, Nat.cast_ofNat]
  have vh : vals exH = [2, 6, 5, 9] := by
    simp only [vals, List.map_cons, List.map_nil, (isLit (ρ := Rounding.binary64) 5 (by norm_num)).2, (isLit (ρ := Rounding.binary64) 2 (by norm_num)).2,
      (isLit (ρ := Rounding.binary64) 6 (by norm_num)).2, (isLit (ρ := Rounding.binary64) 9 (by norm_num)).2, Nat.cast_ofNat]
  have vl : vals exL = [1, 4, 2, 6] := by
    simp only [vals, List.map_cons, List.map_nil, (isLit (ρ := Rounding.binary64) 4 (by norm_num)).2, (isLit (ρ := Rounding.binary64) 2 (by norm_num)).2,
      (isLit (ρ := Rounding.binary64) 6 (by norm_num)).2, (isOne (ρ := Rounding.binary64)).2, Nat.cast_ofNat]
  refine ⟨r, y, er, hy, ?_⟩
  simp only [vc, vh, vl] at q
  norm_num [recent, bar, lastOf, List.range_succ, QuotWithin, unit64, maxOf, minOf] at q
  exact q.mono (by norm_num)

end Examples

end Volatility

end Traquer
