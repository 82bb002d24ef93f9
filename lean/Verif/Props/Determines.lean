import Verif.Spec.Determines
import Verif.Props.Superpose
import Verif.Props.Extremes2
/-!
# C124: the readings of an average, with the bars before the first reading, determine the prices (exact arithmetic)
-/

namespace Traquer
open FP FloatLit

/-- From bar `k` on, if only the newest bar of two series differs then their readings differ by `c i` times as much. -/
def Gain (k : ℕ) (V : (ℕ → ℝ) → ℕ → ℝ) (c : ℕ → ℝ) : Prop :=
  ∀ i, k ≤ i → ∀ u v : ℕ → ℝ, (∀ j, j < i → u j = v j) → V u i - V v i = c i * (u i - v i)

theorem Gain.same {k : ℕ} {V : (ℕ → ℝ) → ℕ → ℝ} {c : ℕ → ℝ} (h : Gain k V c) {i : ℕ} (hi : k ≤ i) {u v : ℕ → ℝ}
    (e : ∀ j, j ≤ i → u j = v j) : V u i = V v i := by
  have := h i hi u v fun j hj => e j hj.le
  rw [e i le_rfl, sub_self, mul_zero] at this
  linarith

theorem Gain.later {k k' : ℕ} {V : (ℕ → ℝ) → ℕ → ℝ} {c : ℕ → ℝ} (h : Gain k V c) (hk : k ≤ k') : Gain k' V c :=
  fun i hi => h i (by omega)

theorem Gain.add {k : ℕ} {V W : (ℕ → ℝ) → ℕ → ℝ} {c d : ℕ → ℝ} (h : Gain k V c) (h' : Gain k W d) :
    Gain k (fun x i => V x i + W x i) fun i => c i + d i := fun i hi u v e => by
  have a := h i hi u v e
  have b := h' i hi u v e
  linear_combination a + b

theorem Gain.sub {k : ℕ} {V W : (ℕ → ℝ) → ℕ → ℝ} {c d : ℕ → ℝ} (h : Gain k V c) (h' : Gain k W d) :
    Gain k (fun x i => V x i - W x i) fun i => c i - d i := fun i hi u v e => by
  have a := h i hi u v e
  have b := h' i hi u v e
  linear_combination a - b

theorem Gain.mul {k : ℕ} {V : (ℕ → ℝ) → ℕ → ℝ} {c : ℕ → ℝ} (h : Gain k V c) (s : ℝ) :
    Gain k (fun x i => s * V x i) fun i => s * c i := fun i hi u v e => by
  have a := h i hi u v e
  linear_combination s * a

theorem Gain.price : Gain 0 (fun x i => x i) fun _ => 1 := fun i _ u v _ => by simp

theorem lastOf_new {v : ℕ → ℝ} {w i : ℕ} (hw : 1 ≤ w) (hi : w ≤ i + 1) : lastOf v w i = lastOf v (w - 1) (i - 1) ++ [v i] := by
  rcases Nat.lt_or_ge w 2 with h | h
  · obtain rfl : w = 1 := by omega
    simp [lastOf]
  · exact lastOf_snoc h hi

/-- A weighted mean of the last `w` readings of `V` that gives the newest weight `b`. -/
theorem Gain.weighted {k w : ℕ} {V : (ℕ → ℝ) → ℕ → ℝ} {c : ℕ → ℝ} (h : Gain k V c) (hw : 1 ≤ w) {ws : List ℝ} {b : ℝ}
    (hl : ∃ a, a.length = w - 1 ∧ ws = a ++ [b]) :
    Gain (k + (w - 1)) (fun x i => weightedMean ws (lastOf (V x) w i)) fun i => b / ws.sum * c i := by
  obtain ⟨a, la, ea⟩ := hl
  intro i hi u v e
  have d := h i (by omega) u v e
  have p : lastOf (V u) (w - 1) (i - 1) = lastOf (V v) (w - 1) (i - 1) := by
    refine Traquer.lastOf_congr fun j hj => h.same (by omega) fun t ht => e t (by omega)
  have z : ∀ x : ℕ → ℝ, weightedMean ws (lastOf (V x) w i) =
      (((a.zip (lastOf (V x) (w - 1) (i - 1))).map fun p => p.1 * p.2).sum + b * V x i) / ws.sum := fun x => by
    rw [lastOf_new hw (by omega), weightedMean]
    conv_lhs => rw [ea]
    rw [List.zip_append (by simp [la, lastOf]), ea]
    simp
  show weightedMean ws (lastOf (V u) w i) - weightedMean ws (lastOf (V v) w i) = _
  rw [z u, z v, p]
  linear_combination b / ws.sum * d

/-- The mean of the last `w` readings of `V`. -/
theorem Gain.mean {k w : ℕ} {V : (ℕ → ℝ) → ℕ → ℝ} {c : ℕ → ℝ} (h : Gain k V c) (hw : 1 ≤ w) :
    Gain (k + (w - 1)) (fun x i => mean (lastOf (V x) w i)) fun i => c i / w := by
  intro i hi u v e
  have d := h i (by omega) u v e
  have p : lastOf (V u) (w - 1) (i - 1) = lastOf (V v) (w - 1) (i - 1) := by
    refine Traquer.lastOf_congr fun j hj => h.same (by omega) fun t ht => e t (by omega)
  have z : ∀ x : ℕ → ℝ, Traquer.mean (lastOf (V x) w i) = ((lastOf (V x) (w - 1) (i - 1)).sum + V x i) / w := fun x => by
    rw [mean_of_length (show (lastOf (V x) w i).length = w by simp [lastOf]), lastOf_new hw (by omega)]
    simp
  show Traquer.mean (lastOf (V u) w i) - Traquer.mean (lastOf (V v) w i) = _
  rw [z u, z v, p]
  linear_combination d / w

/-- What the newest bar weighs in an exponential average whose seed is reported at bar `s`. -/
noncomputable def ewmaGain (s w i : ℕ) : ℝ := if i = s then 1 / w else 2 / (w + 1)

/-- What the newest bar weighs in a Wilder average. -/
theorem Gain.wilder {k w : ℕ} {V : (ℕ → ℝ) → ℕ → ℝ} {c : ℕ → ℝ} (h : Gain k V c) (hw : 1 ≤ w) :
    Gain (k + (w - 1)) (fun x => wilderFrom k w (V x)) fun i => c i / w := by
  have hw0 := (Smooth.natCast_pos hw).ne'
  have seed : ∀ x : ℕ → ℝ, wilderFrom k w x (k + w - 1) = Traquer.mean (lastOf x w (k + w - 1)) := fun x => by
    obtain ⟨j, e⟩ : ∃ j, k + w - 1 = j := ⟨_, rfl⟩
    rcases j with _ | j
    · rw [e, wilderFrom, e]
    · rw [e, wilderFrom, if_pos (by omega), e]
  have base := h.mean hw
  have same : ∀ i, k + w - 1 ≤ i → ∀ u v : ℕ → ℝ, (∀ j, j ≤ i → u j = v j) → wilderFrom k w (V u) i = wilderFrom k w (V v) i := by
    intro i hi
    induction i, hi using Nat.le_induction with
    | base =>
      intro u v e
      rw [seed, seed]
      exact base.same (by omega) e
    | succ n hn ih =>
      intro u v e
      rw [wilderFrom, wilderFrom, if_neg (by omega), if_neg (by omega), ih u v fun j hj => e j (by omega), h.same (by omega) e]
  intro i hi u v e
  dsimp only
  rcases Nat.lt_or_ge (k + w - 1) i with g | g
  · obtain ⟨n, rfl⟩ : ∃ n, i = n + 1 := ⟨i - 1, by omega⟩
    have d := h (n + 1) (by omega) u v e
    rw [wilderFrom, wilderFrom, if_neg (by omega), if_neg (by omega), same n (by omega) u v fun j hj => e j (by omega)]
    linear_combination d / w
  · obtain rfl : i = k + w - 1 := by omega
    have := base _ (by omega) u v e
    rw [seed, seed]
    exact this

theorem Gain.ewma {k w : ℕ} {V : (ℕ → ℝ) → ℕ → ℝ} {c : ℕ → ℝ} (h : Gain k V c) (hw : 1 ≤ w) :
    Gain (k + (w - 1)) (fun x => ewmaFrom k w (V x)) fun i => ewmaGain (k + (w - 1)) w i * c i := by
  have seed : ∀ x : ℕ → ℝ, ewmaFrom k w x (k + w - 1) = Traquer.mean (lastOf x w (k + w - 1)) := fun x => by
    obtain ⟨j, e⟩ : ∃ j, k + w - 1 = j := ⟨_, rfl⟩
    rcases j with _ | j
    · rw [e, ewmaFrom, e]
    · rw [e, ewmaFrom, if_pos (by omega), e]
  have base := h.mean hw
  have same : ∀ i, k + w - 1 ≤ i → ∀ u v : ℕ → ℝ, (∀ j, j ≤ i → u j = v j) → ewmaFrom k w (V u) i = ewmaFrom k w (V v) i := by
    intro i hi
    induction i, hi using Nat.le_induction with
    | base =>
      intro u v e
      rw [seed, seed]
      exact base.same (by omega) e
    | succ n hn ih =>
      intro u v e
      rw [ewmaFrom, ewmaFrom, if_neg (by omega), if_neg (by omega), ih u v fun j hj => e j (by omega), h.same (by omega) e]
  intro i hi u v e
  dsimp only
  rcases Nat.lt_or_ge (k + w - 1) i with g | g
  · obtain ⟨n, rfl⟩ : ∃ n, i = n + 1 := ⟨i - 1, by omega⟩
    have d := h (n + 1) (by omega) u v e
    rw [ewmaFrom, ewmaFrom, if_neg (by omega), if_neg (by omega), same n (by omega) u v fun j hj => e j (by omega), ewmaGain,
      if_neg (by omega)]
    linear_combination 2 / (w + 1) * d
  · obtain rfl : i = k + w - 1 := by omega
    have := base _ (by omega) u v e
    dsimp only at this
    rw [seed, seed, ewmaGain, if_pos (by omega), this]
    ring

theorem ewmaGain_pos {s w : ℕ} (hw : 1 ≤ w) (i : ℕ) : 0 < ewmaGain s w i := by
  have := Smooth.natCast_pos hw
  unfold ewmaGain
  split <;> positivity

theorem ewmaGain_le {s w : ℕ} (hw : 1 ≤ w) (i : ℕ) : ewmaGain s w i ≤ 2 / (w + 1) := by
  have := Smooth.natCast_pos hw
  have h1 : (1 : ℝ) ≤ w := by exact_mod_cast hw
  unfold ewmaGain
  split
  · rw [div_le_div_iff₀ (by positivity) (by positivity)]; linarith
  · exact le_rfl

theorem ewmaGain_le_one {s w : ℕ} (hw : 1 ≤ w) (i : ℕ) : ewmaGain s w i ≤ 1 := by
  have h1 : (1 : ℝ) ≤ w := by exact_mod_cast hw
  refine (ewmaGain_le hw i).trans ?_
  rw [div_le_one (by positivity)]; linarith

/-- After the seed bar, and for window 1 always, the newest bar weighs `2 / (w + 1)`. -/
theorem ewmaGain_late {s w i : ℕ} (h : w = 1 ∨ s < i) : ewmaGain s w i = 2 / (w + 1) := by
  unfold ewmaGain
  split
  · obtain rfl : w = 1 := by omega
    norm_num
  · rfl

/-- An indicator whose newest bar always counts determines the prices. -/
theorem determines_of {ok : ℕ → Prop} {k : ℕ} {f : List XF → Option (List XF)} {V : (ℕ → ℝ) → ℕ → ℝ} {c : ℕ → ℝ} (h : Gain k V c)
    (h0 : ∀ i, k ≤ i → c i ≠ 0)
    (hr : ∀ data, Fins data → ok data.length → Reports data.length k (V (bar (vals data))) (f data)) : Determines ok k f := by
  intro x y hx hy hl ho hk hs
  obtain ⟨a, b, ea, eb, la, lb, hab⟩ := hs
  obtain ⟨a', ea', -, -, va⟩ := hr x hx ho
  obtain ⟨b', eb', -, -, vb⟩ := hr y hy (hl ▸ ho)
  obtain rfl : a = a' := Option.some.inj (ea.symm.trans ea')
  obtain rfl : b = b' := Option.some.inj (eb.symm.trans eb')
  have key : ∀ i, i < x.length → bar (vals x) i = bar (vals y) i := by
    intro i
    induction i using Nat.strong_induction_on with
    | _ i ih =>
      intro hi
      rcases Nat.lt_or_ge i k with g | g
      · have := congrArg (fun l => l[i]?) hk
        simp only [List.getElem?_take_of_lt g] at this
        simp only [bar, List.getD_eq_getElem?_getD, this]
      · obtain ⟨p, hp, vp⟩ := va i g hi
        obtain ⟨q, hq, vq⟩ := vb i g (hl ▸ hi)
        obtain ⟨q', hq', vq'⟩ := (hab i _).1 ⟨p, hp, vp⟩
        obtain rfl : q = q' := Option.some.inj (hq.symm.trans hq')
        have e := h i g (bar (vals x)) (bar (vals y)) fun j hj => ih j hj (by omega)
        rw [vq'.unique vq, sub_self] at e
        rcases mul_eq_zero.1 e.symm with e | e
        · exact absurd e (h0 i g)
        · linarith
  refine List.ext_getElem (by simpa [vals] using hl) fun i h1 h2 => ?_
  have := key i (by simpa [vals] using h1)
  rw [bar, bar, List.getD_eq_getElem?_getD, List.getD_eq_getElem?_getD, List.getElem?_eq_getElem h1, List.getElem?_eq_getElem h2] at this
  exact this

end Traquer

namespace Traquer.Smooth
open FP FloatLit

/-- C124 -/
theorem sma_determines {w : ℕ} (hw : 1 ≤ w) : Determines (fun n => w ≤ n + 1) (w - 1) fun x => sma x w := by
  have := natCast_pos hw
  exact determines_of ((Gain.price.mean hw).later (by omega)) (fun i _ => by positivity) fun d hd hn =>
    (sma_reports d w hw hn hd).congr fun i h1 h2 => by rw [lastOf_bar (by omega) (by simpa using h2)]

/-- C124 -/
theorem ewma_determines {w : ℕ} (hw : 1 ≤ w) : Determines (fun n => w ≤ n) (w - 1) fun x => ewma x w :=
  determines_of ((Gain.price.ewma hw).later (by omega)) (fun i _ => by simpa using (ewmaGain_pos hw i).ne') fun d hd hn =>
    ewma_values d w hw hn hd

/-- C124 -/
theorem wilder_determines {w : ℕ} (hw : 1 ≤ w) : Determines (fun n => w ≤ n) (w - 1) fun x => wilder x w := by
  have := natCast_pos hw
  exact determines_of ((Gain.price.wilder hw).later (by omega)) (fun i _ => by positivity) fun d hd hn => wilder_values d w hw hn hd

theorem range'_new {w : ℕ} (hw : 1 ≤ w) (f : ℕ → ℝ) : ∃ a, a.length = w - 1 ∧ (List.range' 1 w).map f = a ++ [f w] := by
  obtain ⟨n, rfl⟩ : ∃ n, w = n + 1 := ⟨w - 1, by omega⟩
  exact ⟨(List.range' 1 n).map f, by simp, by rw [List.range'_concat]; simp [Nat.add_comm]⟩

theorem wma_sum (w : ℕ) : ((List.range' 1 w).map fun i : ℕ => (i : ℝ)).sum = w * (w + 1) / 2 := by
  induction w with
  | zero => simp
  | succ n ih => rw [List.range'_concat, List.map_append, List.sum_append, ih]; simp; ring

theorem Gain.wma {k w : ℕ} {V : (ℕ → ℝ) → ℕ → ℝ} {c : ℕ → ℝ} (h : Gain k V c) (hw : 1 ≤ w) :
    Gain (k + (w - 1)) (fun x i => wmaOf w (lastOf (V x) w i)) fun i => 2 / (w + 1) * c i := by
  have h1 := natCast_pos hw
  have := h.weighted hw (range'_new hw fun i : ℕ => (i : ℝ))
  rw [wma_sum] at this
  have e : (w : ℝ) / (w * (w + 1) / 2) = 2 / (w + 1) := by field_simp
  rwa [e] at this

/-- C124 -/
theorem wma_determines {w : ℕ} (hw : 1 ≤ w) : Determines (fun n => w ≤ n + 1) (w - 1) fun x => wma x w := by
  have := natCast_pos hw
  exact determines_of ((Gain.wma Gain.price hw).later (by omega)) (fun i _ => by positivity) fun d hd hn =>
    (wma_reports d w hw hn hd).congr fun i h1 h2 => by rw [lastOf_bar (by omega) (by simpa using h2)]

/-- C124 -/
theorem pwma_determines {w : ℕ} (hw : 1 ≤ w) (hp : w ≤ 63) : Determines (fun n => w ≤ n + 1) (w - 1) fun x => pwma x w := by
  have hl : ∃ a : List ℝ, a.length = w - 1 ∧ ((List.range w).map fun k => (w - 1).choose k).map (fun u : ℕ => (u : ℝ)) = a ++ [1] := by
    obtain ⟨n, rfl⟩ : ∃ n, w = n + 1 := ⟨w - 1, by omega⟩
    exact ⟨((List.range n).map fun k => n.choose k).map fun u : ℕ => (u : ℝ), by simp, by simp [List.range_succ]⟩
  refine determines_of ((Gain.price.weighted hw hl).later (by omega)) (fun i _ => ?_) fun d hd hn =>
    (pwma_reports d w hw hp hn hd).congr fun i h1 h2 => by rw [lastOf_bar (by omega) (by simpa using h2)]
  have : (0 : ℝ) < (((List.range w).map fun k => (w - 1).choose k).map fun u : ℕ => (u : ℝ)).sum := by
    obtain ⟨a, -, e⟩ := hl
    have : 0 ≤ a.sum := List.sum_nonneg fun x hx => by
      have : x ∈ ((List.range w).map fun k => (w - 1).choose k).map (fun u : ℕ => (u : ℝ)) := by rw [e]; simp [hx]
      obtain ⟨u, -, rfl⟩ := List.mem_map.1 this
      positivity
    rw [e]; simp; linarith
  positivity

/-- C124 -/
theorem fwma_determines {w : ℕ} (hw : 2 ≤ w) : Determines (fun n => w ≤ n + 1) (w - 1) fun x => fwma x w := by
  have hl : ∃ a : List ℝ, a.length = w - 1 ∧ ((List.range' 1 w).map Nat.fib).map (fun u : ℕ => (u : ℝ)) = a ++ [(Nat.fib w : ℝ)] := by
    rw [List.map_map]
    exact range'_new (by omega) fun i => (Nat.fib i : ℝ)
  have hf : (0 : ℝ) < Nat.fib w := by exact_mod_cast Nat.fib_pos.2 (by omega)
  refine determines_of ((Gain.price.weighted (by omega) hl).later (by omega)) (fun i _ => ?_) fun d hd hn =>
    (fwma_reports d w hw hn hd).congr fun i h1 h2 => by rw [lastOf_bar (by omega) (by simpa using h2)]
  have : (0 : ℝ) < (((List.range' 1 w).map Nat.fib).map fun u : ℕ => (u : ℝ)).sum := by
    obtain ⟨a, -, e⟩ := hl
    have : 0 ≤ a.sum := List.sum_nonneg fun x hx => by
      have : x ∈ ((List.range' 1 w).map Nat.fib).map (fun u : ℕ => (u : ℝ)) := by rw [e]; simp [hx]
      obtain ⟨u, -, rfl⟩ := List.mem_map.1 this
      positivity
    rw [e]; simp; linarith
  positivity

/-- C124 -/
theorem trima_determines {w : ℕ} (hw : 1 ≤ w) : Determines (fun n => w ≤ n + 1) (w - 1) fun x => trima x w := by
  have h1 : (0 : ℝ) < ((w + 1) / 2 : ℕ) := natCast_pos (by omega)
  have h2 : (0 : ℝ) < (w / 2 + 1 : ℕ) := natCast_pos (by omega)
  exact determines_of (((Gain.price.mean (w := (w + 1) / 2) (by omega)).mean (w := w / 2 + 1) (by omega)).later (by omega))
    (fun i _ => by positivity) fun d hd hn => trima_values d w hw hn hd

/-- C124 -/
theorem hull_determines {w : ℕ} (hw : 1 ≤ w) (hb : w < 2 ^ 64) :
    Determines (fun n => w ≤ n + 1) (w - 1 + (Nat.sqrt w - 1)) fun x => hull x w := by
  have hs : 1 ≤ Nat.sqrt w := Nat.sqrt_pos.2 (by omega)
  have g := Gain.wma ((((Gain.wma Gain.price (w := (w + 1) / 2) (by omega)).later (k' := w - 1) (by omega)).mul 2).sub
    ((Gain.wma Gain.price hw).later (k' := w - 1) (by omega))) hs
  refine determines_of g (fun i _ => ?_) fun d hd hn => hull_values d w hw hb hn hd
  have h1 : (0 : ℝ) < ((w + 1) / 2 : ℕ) := natCast_pos (by omega)
  have h3 : (((w + 1) / 2 : ℕ) : ℝ) ≤ w := by exact_mod_cast (by omega : (w + 1) / 2 ≤ w)
  have h2 : (0 : ℝ) < Nat.sqrt w := natCast_pos hs
  have h4 : (2 : ℝ) / (w + 1) ≤ 2 / (((w + 1) / 2 : ℕ) + 1) := by gcongr
  have h5 : (0 : ℝ) < 2 / (((w + 1) / 2 : ℕ) + 1) := by positivity
  have : 0 < 2 * (2 / ((((w + 1) / 2 : ℕ) : ℝ) + 1) * 1) - 2 / ((w : ℝ) + 1) * 1 := by linarith
  positivity

theorem Gain.ema1 {w : ℕ} (hw : 1 ≤ w) : Gain (w - 1) (ema1 w) fun i => ewmaGain (w - 1) w i := by
  have := (Gain.price.ewma hw).later (k' := w - 1) (by omega)
  simpa using this

theorem Gain.step {w m : ℕ} {V : (ℕ → ℝ) → ℕ → ℝ} {c : ℕ → ℝ} (h : Gain (m * (w - 1)) V c) (hw : 1 ≤ w) :
    Gain ((m + 1) * (w - 1)) (fun x => ewmaFrom (m * (w - 1)) w (V x)) fun i => ewmaGain ((m + 1) * (w - 1)) w i * c i := by
  have e : (m + 1) * (w - 1) = m * (w - 1) + (w - 1) := by ring
  rw [e]
  exact h.ewma hw

theorem Gain.ema2 {w : ℕ} (hw : 1 ≤ w) : Gain (2 * (w - 1)) (ema2 w) fun i => ewmaGain (2 * (w - 1)) w i * ewmaGain (w - 1) w i := by
  have := Gain.step (m := 1) (w := w) (by simpa using Gain.ema1 hw) hw
  simpa using this

/-- C124 -/
theorem dema_determines {w : ℕ} (hw : 1 ≤ w) : Determines (fun n => 2 * w ≤ n + 1) (2 * (w - 1)) fun x => dema x w := by
  refine determines_of ((((Gain.ema1 hw).later (by omega)).mul 2).sub (Gain.ema2 hw)) (fun i _ => ?_) fun d hd hn =>
    dema_reports d w hw hn hd
  have a := ewmaGain_pos (s := w - 1) hw i
  have b := ewmaGain_le_one (s := 2 * (w - 1)) hw i
  have : ewmaGain (2 * (w - 1)) w i * ewmaGain (w - 1) w i ≤ 1 * ewmaGain (w - 1) w i := by gcongr
  linarith

/-- C124 -/
theorem tema_determines {w : ℕ} (hw : 1 ≤ w) : Determines (fun n => 3 * w ≤ n + 2) (3 * (w - 1)) fun x => tema x w := by
  have g3 := Gain.step (Gain.ema2 hw) hw
  refine determines_of (((((Gain.ema1 hw).later (by omega)).mul 3).sub (((Gain.ema2 hw).later (by omega)).mul 3)).add g3) (fun i _ => ?_)
    fun d hd hn => tema_reports d w hw hn hd
  have a := ewmaGain_pos (s := w - 1) hw i
  have b := ewmaGain_le_one (s := 2 * (w - 1)) hw i
  have b' := ewmaGain_pos (s := 2 * (w - 1)) hw i
  have c := ewmaGain_pos (s := (2 + 1) * (w - 1)) hw i
  have h : 0 < ewmaGain (w - 1) w i * (3 * (1 - ewmaGain (2 * (w - 1)) w i) +
      ewmaGain ((2 + 1) * (w - 1)) w i * ewmaGain (2 * (w - 1)) w i) := by
    have := mul_pos c b'
    exact mul_pos a (by linarith)
  exact ne_of_gt (by linarith)

/-- C124 -/
theorem t3_determines {w : ℕ} (factor : Option XF) {f : ℝ} (hw : 1 ≤ w) (hf : factor.getD 0.7 ⇓ f) :
    Determines (fun n => 6 * w ≤ n + 5) (6 * (w - 1)) fun x => t3 x w factor := by
  have g3 := Gain.step (Gain.ema2 hw) hw
  have g4 := Gain.step g3 hw
  have g5 := Gain.step g4 hw
  have g6 := Gain.step g5 hw
  norm_num only at g3 g4 g5 g6
  have h1 : (1 : ℝ) ≤ w := by exact_mod_cast hw
  set g := max 0 (min f 1) with hg
  have hg0 : 0 ≤ g := le_max_left _ _
  refine determines_of ((((g6.mul (-g ^ 3)).add ((g5.later (by omega)).mul (3 * g ^ 2 + 3 * g ^ 3))).add
    ((g4.later (by omega)).mul (-3 * g - 6 * g ^ 2 - 3 * g ^ 3))).add ((g3.later (by omega)).mul (1 + 3 * g + 3 * g ^ 2 + g ^ 3)))
    (fun i hi => ?_) fun d hd hn => t3_reports d w factor f hw hn hf hd
  have l : ∀ m, m < 6 → w = 1 ∨ m * (w - 1) < i := fun m hm => by
    rcases Nat.lt_or_ge 1 w with h | h
    · right
      have : m * (w - 1) < 6 * (w - 1) := Nat.mul_lt_mul_of_pos_right hm (by omega)
      omega
    · left; omega
  have l1 := l 1 (by decide)
  rw [one_mul] at l1
  rw [ewmaGain_late l1, ewmaGain_late (l 2 (by decide)), ewmaGain_late (l 3 (by decide)), ewmaGain_late (l 4 (by decide)),
    ewmaGain_late (l 5 (by decide))]
  have a := ewmaGain_le (s := 6 * (w - 1)) hw i
  set c : ℝ := 2 / ((w : ℝ) + 1) with hc
  have c0 : 0 < c := by positivity
  have c1 : c ≤ 1 := by rw [hc, div_le_one (by positivity)]; linarith
  have key : 0 < c ^ 3 * (1 + g - g * c) ^ 3 := by
    have : 0 < 1 + g - g * c := by nlinarith
    positivity
  have k2 : 0 ≤ g ^ 3 * c ^ 5 * (c - ewmaGain (6 * (w - 1)) w i) := mul_nonneg (by positivity) (by linarith)
  refine ne_of_gt ?_
  nlinarith [key, k2]

/-- C124 -/
theorem zlma_determines {w : ℕ} (hw : 1 ≤ w) :
    Determines (fun n => (w - 1) / 2 + w ≤ n) ((w - 1) / 2 + (w - 1)) fun x => zlma x w := by
  have g : Gain ((w - 1) / 2) (fun x i => 2 * x i - x (i - (w - 1) / 2)) fun _ => if (w - 1) / 2 = 0 then 1 else 2 := by
    intro i hi u v e
    dsimp only
    split
    next h => rw [h]; simp; ring
    next h => rw [e (i - (w - 1) / 2) (by omega)]; ring
  refine determines_of (g.ewma hw) (fun i _ => ?_) fun d hd hn => zlma_reports d w hw hn hd
  have := ewmaGain_pos (s := (w - 1) / 2 + (w - 1)) hw i
  split <;> simpa using this.ne'

theorem smoother_r {a : ℝ} (ha : 0 < a) : 0 < Real.exp (-a) ∧ Real.exp (-a) < 1 := ⟨Real.exp_pos _, by rw [Real.exp_lt_one_iff]; linarith⟩

/-- C124: with the two-pole smoother the first two bars are enough, whatever the window. -/
theorem ssf_determines {w : ℕ} (hw : 1 ≤ w) : Determines (fun n => 3 ≤ n) 2 fun x => ssf x w none := by
  have h1 := natCast_pos hw
  obtain ⟨r0, r1⟩ := smoother_r (a := Real.pi * √2 / w) (by have := Real.pi_pos; positivity)
  have hcos := Real.cos_le_one (Real.pi * √2 / w)
  have same : ∀ i, ∀ u v : ℕ → ℝ, (∀ j, j ≤ i → u j = v j) → smoother2 w u i = smoother2 w v i := by
    intro i
    induction i using Nat.strong_induction_on with
    | _ i ih =>
      intro u v e
      match i with
      | 0 => simpa [smoother2] using e 0 le_rfl
      | 1 => simpa [smoother2] using e 1 le_rfl
      | i + 2 =>
        simp only [smoother2]
        rw [ih (i + 1) (by omega) u v fun j hj => e j (by omega), ih i (by omega) u v fun j hj => e j (by omega), e (i + 2) le_rfl]
  have g : Gain 2 (fun x => smoother2 w x) fun _ => 1 - 2 * Real.exp (-(Real.pi * √2 / w)) * Real.cos (Real.pi * √2 / w) -
      -Real.exp (-(Real.pi * √2 / w)) ^ 2 := by
    intro i hi u v e
    obtain ⟨n, rfl⟩ : ∃ n, i = n + 2 := ⟨i - 2, by omega⟩
    simp only [smoother2]
    rw [same (n + 1) u v fun j hj => e j (by omega), same n u v fun j hj => e j (by omega)]
    ring
  refine determines_of g (fun i _ => ne_of_gt ?_) fun d hd hn => by simpa using ssf_reports d w none hw hn hd
  have : Real.exp (-(Real.pi * √2 / w)) * Real.cos (Real.pi * √2 / w) ≤ Real.exp (-(Real.pi * √2 / w)) * 1 := by gcongr
  nlinarith

/-- C124: with the three-pole smoother the first three bars are enough. -/
theorem ssf3_determines {w : ℕ} (hw : 1 ≤ w) : Determines (fun n => 3 ≤ n) 3 fun x => ssf x w (some true) := by
  have h1 := natCast_pos hw
  obtain ⟨r0, r1⟩ := smoother_r (a := Real.pi / w) (by have := Real.pi_pos; positivity)
  have hcos := Real.cos_le_one (√3 * (Real.pi / w))
  have same : ∀ i, ∀ u v : ℕ → ℝ, (∀ j, j ≤ i → u j = v j) → smoother3 w u i = smoother3 w v i := by
    intro i
    induction i using Nat.strong_induction_on with
    | _ i ih =>
      intro u v e
      match i with
      | 0 => simpa [smoother3] using e 0 le_rfl
      | 1 => simpa [smoother3] using e 1 le_rfl
      | 2 => simpa [smoother3] using e 2 le_rfl
      | i + 3 =>
        simp only [smoother3]
        rw [ih (i + 2) (by omega) u v fun j hj => e j (by omega), ih (i + 1) (by omega) u v fun j hj => e j (by omega),
          ih i (by omega) u v fun j hj => e j (by omega), e (i + 3) le_rfl]
  generalize hr : Real.exp (-(Real.pi / w)) = r at r0 r1
  generalize hz : Real.cos (√3 * (Real.pi / w)) = z at hcos
  have g : Gain 3 (fun x => smoother3 w x) fun _ => (1 - r ^ 2) * (1 + r ^ 2 - 2 * r * z) := by
    intro i hi u v e
    obtain ⟨n, rfl⟩ : ∃ n, i = n + 3 := ⟨i - 3, by omega⟩
    simp only [smoother3, hr, hz]
    rw [same (n + 2) u v fun j hj => e j (by omega), same (n + 1) u v fun j hj => e j (by omega), same n u v fun j hj => e j (by omega)]
    ring
  refine determines_of g (fun i _ => ne_of_gt ?_) fun d hd hn => by simpa using ssf_reports d w (some true) hw hn hd
  have : r * z ≤ r * 1 := by gcongr
  exact mul_pos (by nlinarith) (by nlinarith)

/-- C124: the readings of `hwma` alone determine the prices, unless its level factor is 0. -/
theorem hwma_determines (alpha beta gamma : Option XF) {a b g : ℝ} (ha : alpha.getD 0.2 ⇓ a) (hb : beta.getD 0.1 ⇓ b)
    (hg : gamma.getD 0.1 ⇓ g) (h0 : 0 < a) : Determines (fun n => 1 ≤ n) 0 fun x => hwma x alpha beta gamma := by
  set A := max 0 (min a 1) with hA
  set B := max 0 (min b 1) with hB
  set G := max 0 (min g 1) with hG
  have A0 : 0 < A := lt_max_of_lt_right (lt_min h0 one_pos)
  have B0 : 0 ≤ B := le_max_left _ _
  have G0 : 0 ≤ G := le_max_left _ _
  have same : ∀ i, ∀ u v : ℕ → ℝ, (∀ j, j ≤ i → u j = v j) → holtWinters A B G u i = holtWinters A B G v i := by
    intro i
    induction i with
    | zero => intro u v e; rw [holtWinters, holtWinters, e 0 le_rfl]
    | succ n ih => intro u v e; rw [holtWinters, holtWinters, e _ le_rfl, ih u v fun j hj => e j (by omega)]
  have gn : Gain 0 (fun x i => (holtWinters A B G x i).1 + (holtWinters A B G x i).2.1 + (holtWinters A B G x i).2.2 / 2)
      fun i => if i = 0 then 1 else A + B * A + G * (B * A) / 2 := by
    intro i _ u v e
    rcases i with _ | n
    · simp only [holtWinters, holtWinters.holtStep, if_pos]
      ring
    · simp only [holtWinters, holtWinters.holtStep, same n u v fun j hj => e j (by omega), if_neg (Nat.succ_ne_zero n)]
      ring
  refine determines_of gn (fun i _ => ?_) fun d hd hn => hwma_reports d alpha beta gamma a b g hn hd ha hb hg
  split <;> positivity

end Traquer.Smooth

namespace Traquer.Momentum
open FP FloatLit
open Traquer.Smooth (ema1)

/-- C124: the difference of two exponential averages determines the prices, as long as their windows differ. -/
theorem macd_determines {short long : ℕ} (hs : 1 ≤ short) (hl : 1 ≤ long) (hne : short ≠ long) :
    Determines (fun n => max short long ≤ n) (max short long - 1) fun x => macd x short long := by
  have key : ∀ s l i : ℕ, 1 ≤ s → s < l → l - 1 ≤ i → ewmaGain (l - 1) l i < ewmaGain (s - 1) s i := fun s l i h1 h2 h3 => by
    have a := ewmaGain_le (s := l - 1) (w := l) (by omega) i
    rw [ewmaGain_late (s := s - 1) (w := s) (by omega)]
    refine a.trans_lt ?_
    have : (s : ℝ) < l := by exact_mod_cast h2
    gcongr
  refine determines_of (((Smooth.Gain.ema1 hs).later (by omega)).sub ((Smooth.Gain.ema1 hl).later (by omega))) (fun i hi => ?_)
    fun d hd hn => macd_reports d short long hs hl hn hd
  rcases Nat.lt_or_ge short long with h | h
  · have := key short long i hs h (by omega)
    exact sub_ne_zero.2 this.ne'
  · have := key long short i hl (by omega) (by omega)
    exact sub_ne_zero.2 this.ne

/-- C124 -/
theorem apo_determines {short long : ℕ} (hs : 1 ≤ short) (hl : 1 ≤ long) (hne : short ≠ long) :
    Determines (fun n => max short long ≤ n) (max short long - 1) fun x => apo x short long :=
  macd_determines hs hl hne

end Traquer.Momentum

namespace Traquer
open FP FloatLit

theorem sameReadings_of {n k : ℕ} {v v' : ℕ → ℝ} {r s : Option (List XF)} (h : Reports n k v r) (h' : Reports n k v' s)
    (e : ∀ i, k ≤ i → i < n → v i = v' i) : SameReadings n r s := by
  obtain ⟨a, ea, la, na, va⟩ := h
  obtain ⟨b, eb, lb, nb, vb⟩ := h'
  refine ⟨a, b, ea, eb, la, lb, fun i c => ?_⟩
  rcases Nat.lt_or_ge i n with h2 | h2
  · rcases Nat.lt_or_ge i k with h1 | h1
    · rw [na i h1 h2, nb i h1 h2]
    · obtain ⟨p, hp, vp⟩ := va i h1 h2
      obtain ⟨q, hq, vq⟩ := vb i h1 h2
      rw [e i h1 h2] at vp
      constructor
      · rintro ⟨x, hx, vx⟩
        obtain rfl : p = x := Option.some.inj (hp.symm.trans hx)
        exact ⟨q, hq, by rwa [vx.unique vp]⟩
      · rintro ⟨x, hx, vx⟩
        obtain rfl : q = x := Option.some.inj (hq.symm.trans hx)
        exact ⟨p, hp, by rwa [vx.unique vq]⟩
  · rw [List.getElem?_eq_none (by omega), List.getElem?_eq_none (by omega)]

/-- C124: the bars before the first reading are needed: 1 3 1 and 2 2 2 have the same 2-bar average. -/
theorem sma_needs_start : ¬ Determines (fun n => 2 ≤ n + 1) 0 fun x => Smooth.sma x 2 := by
  intro h
  have e := h ([1, 3, 1].map fin) ([2, 2, 2].map fin) (fins_map_fin _) (fins_map_fin _) (by simp) (by simp) (by simp)
    (sameReadings_of (Smooth.sma_reports _ 2 (by decide) (by simp) (fins_map_fin _))
      (Smooth.sma_reports _ 2 (by decide) (by simp) (fins_map_fin _)) fun i h1 h2 => ?_)
  · rw [vals_map_fin, vals_map_fin] at e
    simp at e
  · rw [vals_map_fin, vals_map_fin]
    simp at h2
    obtain rfl | rfl : i = 1 ∨ i = 2 := by omega
    · simp [mean, recent]; norm_num
    · simp [mean, recent]; norm_num

/-- C124: a standard deviation does not tell a rise from a fall, so it does not determine the prices. -/
theorem std_dev_forgets : ¬ Determines (fun n => 2 ≤ n + 1) 1 fun x => Distribution.std_dev x 2 := by
  intro h
  have r : ∀ a b : ℝ, Reports 2 1 (fun i => stdDev (recent [a, b] 2 i)) (Distribution.std_dev ([a, b].map fin : List XF) 2) := fun a b => by
    have := Distribution.std_dev_reports ([a, b].map fin) 2 (by decide) (by simp) (fins_map_fin _)
    rwa [vals_map_fin] at this
  have e := h ([0, 1].map fin) ([0, -1].map fin) (fins_map_fin _) (fins_map_fin _) (by simp) (by simp) (by simp)
    (sameReadings_of (r 0 1) (r 0 (-1)) fun i h1 h2 => ?_)
  · rw [vals_map_fin, vals_map_fin] at e
    norm_num at e
  · simp at h2
    obtain rfl : i = 1 := by omega
    simp [stdDev, moment, mean, recent]; norm_num

/-- The hypotheses are met: a chart, its own readings. -/
example : SameReadings 3 (Smooth.sma ([1, 3, 1].map fin : List XF) 2) (Smooth.sma ([1, 3, 1].map fin) 2) := by
  obtain ⟨a, ea, la, -⟩ := Smooth.sma_reports ([1, 3, 1].map fin) 2 (by decide) (by simp) (fins_map_fin _)
  exact ⟨a, a, ea, ea, by simpa using la, by simpa using la, fun _ _ => Iff.rfl⟩

example := Smooth.hull_determines (w := 16) (by decide) (by norm_num)
example := Smooth.t3_determines (w := 5) (some (fin (7 / 10))) (by decide) (is_fin _)
example := Momentum.macd_determines (short := 12) (long := 26) (by decide) (by decide) (by decide)
example := Smooth.hwma_determines (some (fin (1 / 5))) (some (fin (1 / 10))) (some (fin (1 / 10))) (is_fin _) (is_fin _) (is_fin _) (by norm_num)

end Traquer
