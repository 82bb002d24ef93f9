import Verif.Model.LazyScan
import Verif.Props.Lazy
import Verif.Props.PanicVolume
import Verif.Props.CausalVolume
import Verif.Props.CausalSmooth
import Verif.Props.Mama
import Verif.Spec.Error
/-!
# C112: a running total that has to give up keeps what it has delivered

obv, vwap and mama panic item by item. Pulling the first `k` items is the same as calling the function on the first `k` bars; obv delivers
exactly the bars that have a volume, vwap with an empty list of resets nothing, and mama never recovers from its first panic.
-/

namespace Traquer
open FloatLit
section
variable {σ α β : Type}

/-- Draining the items of a `scan` is the drained `scan`. -/
theorem scanE_collect (f : σ → α → Option (σ × β)) (bad : σ → α → σ) (s : σ) (l : List α) : mapP id (scanE f bad s l) = scanM f s l := by
  induction l generalizing s with
  | nil => rfl
  | cons x l ih =>
    rw [scanE, scanM]
    cases hx : f s x with
    | none => rfl
    | some p =>
      obtain ⟨s', y⟩ := p
      simp only [mapP, id, ih]

theorem scanE_take (f : σ → α → Option (σ × β)) (bad : σ → α → σ) (s : σ) (l : List α) (k : ℕ) : (scanE f bad s l).take k = scanE f bad s (l.take k) := by
  induction l generalizing s k with
  | nil => simp [scanE]
  | cons x l ih =>
    cases k with
    | zero => simp [scanE]
    | succ k =>
      rw [List.take_succ_cons, scanE, scanE]
      cases hx : f s x with
      | none => simp only [List.take_succ_cons, ih]
      | some p => simp only [List.take_succ_cons, ih]

@[simp] theorem scanE_length (f : σ → α → Option (σ × β)) (bad : σ → α → σ) (s : σ) (l : List α) : (scanE f bad s l).length = l.length := by
  induction l generalizing s with
  | nil => rfl
  | cons x l ih =>
    rw [scanE]
    cases hx : f s x with
    | none => simp [ih]
    | some p => simp [ih]

/-- Whether an item panics, if that depends on the element alone. -/
theorem scanE_item (f : σ → α → Option (σ × β)) (bad : σ → α → σ) {p : α → Prop} {l : List α} (h : ∀ s x, x ∈ l → (f s x = none ↔ p x)) (s : σ) (i : ℕ) (x : α)
    (hx : l[i]? = some x) : (scanE f bad s l)[i]? = some none ↔ p x := by
  induction l generalizing s i with
  | nil => simp at hx
  | cons y l ih =>
    rw [scanE]
    have hy := h s y (by simp)
    cases i with
    | zero =>
      simp at hx
      subst hx
      cases e : f s y with
      | none => simp [← hy, e]
      | some p => simp [← hy, e]
    | succ i =>
      have ih' := fun s => ih (fun s x hx => h s x (by simp [hx])) s i (by simpa using hx)
      cases e : f s y with
      | none => simpa using ih' _
      | some p => simpa using ih' _

/-- A state that stays bad. -/
theorem scanE_stuck {f : σ → α → Option (σ × β)} {bad : σ → α → σ} {B : σ → Prop} (hf : ∀ s x, B s → f s x = none) (hb : ∀ s x, B s → B (bad s x)) (s : σ) (h : B s)
    (l : List α) : scanE f bad s l = List.replicate l.length none := by
  induction l generalizing s with
  | nil => rfl
  | cons x l ih => rw [scanE, hf s x h, List.length_cons, List.replicate_succ, ih _ (hb s x h)]

/-- Once an item panics, all later ones do. -/
theorem scanE_down {f : σ → α → Option (σ × β)} {bad : σ → α → σ} {B I : σ → Prop} {l : List α} (hI : ∀ s x s' y, x ∈ l → I s → f s x = some (s', y) → I s')
    (hn : ∀ s x, x ∈ l → I s → f s x = none → B s) (hf : ∀ s x, B s → f s x = none) (hb : ∀ s x, B s → B (bad s x)) (s : σ) (h : I s) (i j : ℕ) (hij : i ≤ j) (hj : j < l.length)
    (hi : (scanE f bad s l)[i]? = some none) : (scanE f bad s l)[j]? = some none := by
  induction l generalizing s i j with
  | nil => simp at hj
  | cons x l ih =>
    have hx : (scanE f bad s (x :: l)) = scanE f bad s (x :: l) := rfl
    conv_rhs at hx => rw [scanE]
    cases e : f s x with
    | none =>
      have hB := hn s x (by simp) h e
      rw [scanE_stuck hf hb s hB, List.getElem?_replicate, if_pos hj]
    | some p =>
      obtain ⟨s', y⟩ := p
      rw [e] at hx
      simp only at hx
      rw [hx] at hi ⊢
      cases i with
      | zero => simp at hi
      | succ i =>
        cases j with
        | zero => omega
        | succ j =>
          simp only [List.getElem?_cons_succ] at hi ⊢
          exact ih (fun s x s' y hx => hI s x s' y (by simp [hx])) (fun s x hx => hn s x (by simp [hx])) s' (hI s x s' y (by simp) h e) i j (by omega)
            (by simpa using hj) hi

theorem pull_scanE (f : σ → α → Option (σ × β)) (bad : σ → α → σ) (s : σ) (l : List α) (pre : List β) (k : ℕ) (hk : pre.length ≤ k) :
    pull k (some (pre.map some ++ scanE f bad s l)) = (scanM f s (l.take (k - pre.length))).map (pre ++ ·) := by
  rw [pull, Option.bind_eq_bind, Option.bind_some, List.take_append, List.length_map, List.take_of_length_le (by simpa using hk), mapP_some_append, scanE_take,
    scanE_collect]

theorem drain_scanE (f : σ → α → Option (σ × β)) (bad : σ → α → σ) (s : σ) (l : List α) (pre : List β) :
    drain (some (pre.map some ++ scanE f bad s l)) = (scanM f s l).map (pre ++ ·) := by
  rw [drain, Option.bind_eq_bind, Option.bind_some, mapP_some_append, scanE_collect]

/-- Two closures that agree on the elements give the same `scan`. -/
theorem scanM_agree {f g : σ → α → Option (σ × β)} {l : List α} (h : ∀ x ∈ l, ∀ s, f s x = g s x) (s : σ) : scanM f s l = scanM g s l := by
  induction l generalizing s with
  | nil => rfl
  | cons x l ih =>
    rw [scanM, scanM, h x (by simp) s]
    cases g s x with
    | none => rfl
    | some p => simp only [ih fun x hx => h x (by simp [hx])]

end
end Traquer

namespace Traquer.Volume
open FloatLit
variable {F : Type} [FloatOps F] {close volume : List F}

/-- C112: draining the iterator is what C15 and the value theorems speak about. -/
theorem obv_drain : drain (obvIter close volume) = obv close volume := by
  simp only [obvIter, obv, Option.bind_eq_bind]
  rw [bind_some_comp]
  exact drain_scanE _ _ _ _ [nan]

theorem vwap_drain {high low : List F} {resets : Option (List ℕ)} : drain (vwapIter high low close volume resets) = vwap high low close volume resets := by
  have := drain_scanE (vwapStep (F := F)) (fun s _ => s) { tpv := 0, vol := 0, resets := resets.getD [close.length] }
    ((List.range (zip4 high low close volume).length).zip (zip4 high low close volume)) []
  simp only [List.map_nil, List.nil_append, Option.map_id'] at this
  exact this

theorem pairs_take (l : List F) (k : ℕ) (hk : 1 ≤ k) : pairs (l.take k) = (pairs l).take (k - 1) := by
  obtain ⟨k, rfl⟩ : ∃ n, k = n + 1 := ⟨k - 1, by omega⟩
  rw [pairs_eq_zip, pairs_eq_zip, take_zip, Nat.add_sub_cancel, ← List.drop_one, ← List.drop_one, List.drop_take, Nat.add_sub_cancel]
  refine List.ext_getElem? fun i => ?_
  simp only [List.zip, List.getElem?_zipWith, List.getElem?_take, List.getElem?_drop]
  by_cases h : i < k
  · simp [h, h.le]
  · simp [h]

/-- C112: the first `k` items of obv are obv on the first `k` bars, whatever is missing later. -/
theorem obv_pull {k : ℕ} (hk : 1 ≤ k) : pull k (obvIter close volume) = obv (close.take k) (volume.take k) := by
  simp only [obvIter, obv, Option.bind_eq_bind]
  rw [bind_some_comp]
  refine (pull_scanE _ _ _ _ [nan] k hk).trans ?_
  simp only [List.length_cons, List.length_nil, zero_add, List.singleton_append, List.cons_append, List.nil_append]
  congr 1
  rw [pairs_take _ _ hk, take_zip, List.take_range, List.length_take]
  refine scanM_agree ?_ _
  rintro ⟨i, p⟩ hx s
  have := List.mem_range.1 (List.of_mem_zip hx).1
  simp only
  rw [List.getElem?_take, if_pos (by omega)]

/-- C112: pulling `k` items of obv succeeds exactly while there are volumes. -/
theorem obv_pull_answers {k : ℕ} (hk : k ≤ close.length) : (pull k (obvIter close volume)).isSome ↔ k ≤ max 1 volume.length := by
  rcases Nat.eq_zero_or_pos k with rfl | h1
  · simp [pull, obvIter, mapP]
  · rw [obv_pull h1]
    have ha := obv_answers (close := close.take k) (volume := volume.take k) rfl rfl
    simp only [List.length_take, min_eq_left hk] at ha
    by_cases h : k ≤ max 1 volume.length
    · obtain ⟨o, e, -⟩ := ha.1 fun _ => by omega
      simp [e, h]
    · rw [ha.2 (by omega)]
      simp [h]

/-- C112: the item of a bar without volume panics, and no other. -/
theorem obv_item_panics {i : ℕ} (h1 : 1 ≤ i) (h2 : i < close.length) : (∃ items, obvIter close volume = some items ∧ items.length = close.length ∧
    (items[i]? = some none ↔ volume.length ≤ i)) := by
  refine ⟨_, rfl, by simp; omega, ?_⟩
  obtain ⟨i, rfl⟩ : ∃ n, i = n + 1 := ⟨i - 1, by omega⟩
  rw [List.getElem?_cons_succ]
  have hl : i < (pairs close).length := by simp; omega
  refine (scanE_item _ _ (p := fun x : ℕ × (F × F) => volume.length ≤ x.1 + 1) ?_ _ i (i, (pairs close)[i]) ?_).trans (by simp)
  · rintro s ⟨n, p⟩ -
    simp only
    cases e : volume[n + 1]? with
    | none => simpa using List.getElem?_eq_none_iff.1 e
    | some v =>
      have := (List.getElem?_eq_some_iff.1 e).1
      simpa using this
  · exact getElem?_zip (List.getElem?_range hl) (List.getElem?_eq_getElem hl)

/-- C112: an empty list of resets is accepted by the call and refused at every bar. -/
theorem vwap_empty_resets {high low : List F} : vwapIter high low close volume (some []) = some (List.replicate (zip4 high low close volume).length none) := by
  rw [vwapIter]
  simp only [Option.getD_some]
  rw [scanE_stuck (B := fun s => s.resets = [])]
  · simp
  · rintro ⟨a, b, c⟩ ⟨i, h, l, c', v⟩ rfl
    rfl
  · exact fun s _ h => h
  · rfl

end Traquer.Volume

namespace Traquer.Volume
open FloatLit
variable {F : Type} [FloatOps F] {high low close volume : List F}

/-- C112: the first `k` items of vwap are vwap on the first `k` bars. -/
theorem vwap_pull {resets : Option (List ℕ)} {k : ℕ} (h1 : k ≤ high.length) (h2 : k ≤ low.length) (h3 : k ≤ close.length) (h4 : k ≤ volume.length) :
    pull k (vwapIter high low close volume resets) = vwap (high.take k) (low.take k) (close.take k) (volume.take k) resets := by
  have hz : zip4 (high.take k) (low.take k) (close.take k) (volume.take k) = (zip4 high low close volume).take k := by
    clear h1 h2 h3 h4
    induction k generalizing high low close volume with
    | zero => simp [zip4]
    | succ k ih =>
      cases high with
      | nil => simp [zip4]
      | cons a as =>
        cases low with
        | nil => simp [zip4]
        | cons b bs =>
          cases close with
          | nil => simp [zip4]
          | cons c cs =>
            cases volume with
            | nil => simp [zip4]
            | cons d ds => simp [zip4, ih]
  have e : pull k (vwapIter high low close volume resets) = scanM (vwapStep (F := F)) { tpv := 0, vol := 0, resets := resets.getD [close.length] }
      ((List.range ((zip4 high low close volume).take k).length).zip ((zip4 high low close volume).take k)) := by
    have := pull_scanE (vwapStep (F := F)) (fun s _ => s) { tpv := 0, vol := 0, resets := resets.getD [close.length] }
      ((List.range (zip4 high low close volume).length).zip (zip4 high low close volume)) [] k (Nat.zero_le _)
    simp only [List.map_nil, List.nil_append, Option.map_id', List.length_nil, Nat.sub_zero] at this
    refine this.trans ?_
    rw [take_zip, List.take_range, List.length_take]
  rw [e, vwap, hz]
  cases resets with
  | some r => rfl
  | none =>
    simp only [Option.getD_none, List.length_take, min_eq_left h3]
    rw [vwapStep_or (r' := k) (n := k) ?_ h3 (Nat.le_refl _) rfl]
    rintro ⟨i, b⟩ hx
    have := (List.of_mem_zip hx).1
    simp at this
    simp only
    omega

end Traquer.Volume

namespace Traquer.Smooth
open FloatLit
variable {F : Type} [FloatOps F] {data : List F} {fast slow : Option F}

theorem mama_drain : drain (mamaIter data fast slow) = mama data fast slow := by
  simp only [mamaIter, mama, Option.bind_eq_bind]
  rw [bind_some_comp]
  exact drain_scanE _ _ _ _ _

theorem mamaSmooth_size (h : 3 ≤ data.length) : (mamaSmooth data).length = data.length := by
  simp [mamaSmooth]
  omega

theorem mamaSmooth_take {k : ℕ} (h3 : 3 ≤ k) (hk : k ≤ data.length) : mamaSmooth (data.take k) = (mamaSmooth data).take k := by
  simp only [mamaSmooth]
  rw [windowsOf_take _ _ _ hk, List.take_append, List.length_replicate, List.map_take, show k + 1 - 4 = k - 3 by omega, List.take_replicate, min_eq_right h3]

/-- C112: the first `k` items of mama are mama on the first `k` bars. -/
theorem mama_pull {k : ℕ} (h6 : 6 ≤ k) (hk : k ≤ data.length) : pull k (mamaIter data fast slow) = mama (data.take k) fast slow := by
  simp only [mamaIter, mama, Option.bind_eq_bind]
  rw [bind_some_comp]
  refine (pull_scanE _ _ _ _ _ k (by simpa using h6)).trans ?_
  congr 1
  rw [List.length_replicate, ← List.drop_take, List.take_range, List.length_take, mamaSmooth_take (by omega) hk]
  refine scanM_agree ?_ _
  intro i hi s
  have hi : i < k := by
    have := List.mem_range.1 (List.mem_of_mem_drop hi)
    omega
  have e : ∀ {l : List F} {j : ℕ}, j < k → l[j]? = (l.take k)[j]? := fun h => by rw [List.getElem?_take, if_pos h]
  simp only [mamaStep]
  rw [e (l := mamaSmooth data) hi, e (l := mamaSmooth data) (show i - 2 < k by omega), e (l := mamaSmooth data) (show i - 4 < k by omega),
    e (l := mamaSmooth data) (show i - 6 < k by omega), e (l := data) hi]

/-- C112: the warm-up of mama is always delivered. -/
theorem mama_warmup {k : ℕ} (hk : k ≤ 6) : pull k (mamaIter data fast slow) = some (List.replicate k (nan, nan)) := by
  simp only [mamaIter, pull, Option.bind_eq_bind, Option.bind_some]
  rw [List.take_append_of_le_length (by simpa using hk), ← List.map_take, mapP_id_map, List.take_replicate, min_eq_left hk]
  simpa using mapP_some id (List.replicate k ((nan, nan) : F × F))

/-- The queues of the state of mama have seven entries. -/
def Queues (st : MamaState F) : Prop := st.dtrend.length = 7 ∧ st.i1.length = 7 ∧ st.q1.length = 7

/-- The bounds of the `clamp` of the period are not in order. -/
def Jammed (st : MamaState F) : Prop := ((0.67 * st.pd : F) <=. 1.5 * st.pd) = false

omit [FloatOps F] in
theorem pushFront_length {q : List F} (x : F) (h : q.length = 7) : (pushFront q x).length = 7 := by simp [pushFront, h]

theorem hilbertQ_some {q : List F} (t : F) (h : q.length = 7) : ∃ y, hilbertQ q t = some y := by
  have e := fun i (hi : i < 7) => List.getElem?_eq_getElem (show i < q.length by omega)
  exact ⟨hilbert q[0] q[2] q[4] q[6] t, by simp only [hilbertQ, e 0 (by omega), e 2 (by omega), e 4 (by omega), e 6 (by omega), Option.bind_eq_bind, Option.bind_some]⟩

theorem mamaStep_jammed {f s : F} {sm : List F} {st : MamaState F} (i : ℕ) (h : Jammed st) : mamaStep f s sm data st i = none := by
  have hc : ∀ z : F, fclamp z (0.67 * st.pd) (1.5 * st.pd) = none := fun z => by
    rw [fclamp, h]; simp
  simp only [mamaStep, hc, Option.bind_eq_bind, Option.bind_none, Option.bind_fun_none]

theorem mamaStuck_pd (sm : List F) (st : MamaState F) (i : ℕ) : (mamaStuck sm st i).pd = st.pd := by
  simp only [mamaStuck]
  have key : ∀ m : Option (MamaState F), (∀ a, m = some a → a.pd = st.pd) → (m.getD st).pd = st.pd := by
    rintro (_ | a) h
    · rfl
    · exact h a rfl
  refine key _ fun a hm => ?_
  · simp only [Option.bind_eq_bind, Option.bind_eq_some_iff, Option.some.injEq] at hm
    obtain ⟨_, -, _, -, _, -, _, -, _, -, _, -, rfl⟩ := hm
    rfl

theorem mamaStep_cases {f s : F} {sm : List F} {st : MamaState F} {i : ℕ} (hs : i < sm.length) (hi : i < data.length) (h : Queues st) :
    (mamaStep f s sm data st i = none → Jammed st) ∧ ∀ st' y, mamaStep f s sm data st i = some (st', y) → Queues st' := by
  obtain ⟨q1, q2, q3⟩ := h
  have e := fun j (hj : j ≤ i) => List.getElem?_eq_getElem (show j < sm.length by omega)
  have ed := List.getElem?_eq_getElem hi
  have c0 : ∀ (x : F) (q : List F), (pushFront q x)[0]? = some x := fun x q => rfl
  have eq : ∀ {q : List F} (_ : q.length = 7), q[3]? = some q[3] := fun h => List.getElem?_eq_getElem _
  simp only [mamaStep, e i (by omega), e (i - 2) (by omega), e (i - 4) (by omega), e (i - 6) (by omega), Option.bind_eq_bind, Option.bind_some, c0, ed]
  set d := pushFront st.dtrend (hilbert sm[i] sm[i - 2] sm[i - 4] sm[i - 6] (0.075 * st.pd + 0.54)) with hd
  have hdl : d.length = 7 := pushFront_length _ q1
  obtain ⟨q, hq⟩ := hilbertQ_some (0.075 * st.pd + 0.54) hdl
  simp only [hq, Option.bind_some, eq hdl]
  obtain ⟨ji, hji⟩ := hilbertQ_some (0.075 * st.pd + 0.54) (pushFront_length d[3] q2)
  obtain ⟨jq, hjq⟩ := hilbertQ_some (0.075 * st.pd + 0.54) (pushFront_length q q3)
  simp only [hji, hjq, Option.bind_some]
  constructor
  · intro hn
    rw [Option.bind_eq_none_iff] at hn
    by_contra hj
    have hj : ((0.67 * st.pd : F) <=. 1.5 * st.pd) = true := by
      rw [Jammed] at hj
      simpa using hj
    exact absurd (hn _ (by rw [fclamp, if_pos hj])) (by simp)
  · intro st' y hn
    obtain ⟨pd1, -, hn⟩ := Option.bind_eq_some_iff.1 hn
    simp only [Option.some.injEq, Prod.mk.injEq] at hn
    obtain ⟨rfl, -⟩ := hn
    exact ⟨hdl, pushFront_length _ q2, pushFront_length _ q3⟩

/-- C112: mama does not recover: once an item panics, all later ones do. -/
theorem mama_no_recovery : ∃ items, mamaIter data fast slow = some items ∧ items.length = max 6 data.length ∧
    ∀ i j, i ≤ j → j < data.length → items[i]? = some none → items[j]? = some none := by
  refine ⟨_, rfl, by simp; omega, fun i j hij hj hi => ?_⟩
  have h6 : 6 ≤ i := by
    by_contra hc
    rw [List.getElem?_append_left (by simp; omega), List.getElem?_map] at hi
    simp [List.getElem?_replicate, show i < 6 by omega] at hi
  rw [List.getElem?_append_right (by simp; omega)] at hi ⊢
  simp only [List.length_map, List.length_replicate] at hi ⊢
  refine scanE_down (B := Jammed) (I := Queues) ?_ ?_ ?_ ?_ _ ?_ (i - 6) (j - 6) (by omega) (by simp; omega) hi
  · intro s x s' y hx h
    have hx := List.mem_range.1 (List.mem_of_mem_drop hx)
    exact (mamaStep_cases (by rw [mamaSmooth_size (by omega)]; exact hx) hx h).2 s' y
  · intro s x hx h
    have hx := List.mem_range.1 (List.mem_of_mem_drop hx)
    exact (mamaStep_cases (by rw [mamaSmooth_size (by omega)]; exact hx) hx h).1
  · exact fun s x h => mamaStep_jammed x h
  · intro s x h
    rw [Jammed, mamaStuck_pd]
    exact h
  · simp [Queues, mamaInit]

/-- C112: after a NaN at bar `j` every item panics from the next bar on (bar 8 at the earliest); `mama_pull` says that the items before bar `j` are
those of the series that ends there. -/
theorem mama_nan_items {ρ : Rounding} {data : List (FP ρ)} {fast slow : Option (FP ρ)} {j : ℕ} (hj : data[j]? = some FP.nan) :
    ∃ items, mamaIter data fast slow = some items ∧ ∀ i, max j 7 + 1 ≤ i → i < data.length → items[i]? = some none := by
  obtain ⟨items, e, hl, hd⟩ := mama_no_recovery (data := data) (fast := fast) (slow := slow)
  refine ⟨items, e, fun i h1 h2 => ?_⟩
  have hp : pull (max j 7 + 2) (mamaIter data fast slow) = none := by
    rw [mama_pull (by omega) (by omega)]
    exact mama_nan_panics _ _ _ j (by rw [List.getElem?_take, if_pos (by omega)]; exact hj) (by simp; omega)
  have : ∃ m, m < max j 7 + 2 ∧ items[m]? = some none := by
    by_contra hc
    push Not at hc
    have hall : ∀ x ∈ items.take (max j 7 + 2), ∃ y, x = some y := by
      intro x hx
      obtain ⟨m, hm, rfl⟩ := List.mem_iff_getElem.1 hx
      simp only [List.length_take] at hm
      have := hc m (by omega)
      rw [List.getElem?_eq_getElem (by omega)] at this
      rw [List.getElem_take]
      exact Option.ne_none_iff_exists'.1 fun h => this (by rw [h])
    have : ∃ ys, mapP id (items.take (max j 7 + 2)) = some ys := by
      generalize items.take (max j 7 + 2) = l at hall
      induction l with
      | nil => exact ⟨_, rfl⟩
      | cons x l ih =>
        obtain ⟨y, rfl⟩ := hall x (by simp)
        obtain ⟨ys, hys⟩ := ih fun x hx => hall x (by simp [hx])
        exact ⟨y :: ys, by simp only [mapP, id, hys]⟩
    obtain ⟨ys, hys⟩ := this
    rw [e, pull, Option.bind_eq_bind, Option.bind_some, hys] at hp
    cases hp
  obtain ⟨m, hm, hn⟩ := this
  exact hd m i (by omega) h2 hn

end Traquer.Smooth

/-! ## The hypotheses are met by ordinary calls -/

namespace Traquer
open FloatLit
variable {F : Type} [FloatOps F]

/-- Four prices and two volumes: two readings can be had, the third pull panics. -/
example (a b c d v w : F) : (pull 2 (Volume.obvIter [a, b, c, d] [v, w])).isSome ∧ ¬(pull 3 (Volume.obvIter [a, b, c, d] [v, w])).isSome :=
  ⟨(Volume.obv_pull_answers (by simp)).2 (by simp), fun h => absurd ((Volume.obv_pull_answers (by simp)).1 h) (by simp)⟩

/-- Two bars and no resets. -/
example (a b : F) : Volume.vwapIter [a, b] [a, b] [a, b] [a, b] (some []) = some [none, none] := Volume.vwap_empty_resets

/-- Ten bars, the eighth of them NaN: the ninth and the tenth panic. -/
example (x : F64) : ∃ items, Smooth.mamaIter (List.replicate 7 x ++ [FP.nan, x, x]) none none = some items ∧ items[8]? = some none ∧ items[9]? = some none := by
  obtain ⟨items, e, h⟩ := Smooth.mama_nan_items (data := List.replicate 7 x ++ [FP.nan, x, x]) (fast := none) (slow := none) (j := 7) (by simp [List.getElem?_append])
  exact ⟨items, e, h 8 (by simp) (by simp), h 9 (by simp) (by simp)⟩

end Traquer
