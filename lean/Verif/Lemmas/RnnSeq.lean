import Verif.Lemmas.Rnn
import Mathlib.Data.List.GetD
import Mathlib.Order.Nat

/-!
# Layout and samples of recurrent layers: helper lemmas
-/

set_option linter.unusedSectionVars false

namespace Brevitas.Rnn

open Brevitas.Spec

section Loops
variable {K L L' S S' R R' : Type*}

theorem layersLoop_map_layers (fwd : L → Tensor3 K → S → Option (Tensor3 K × R)) (f : L' → L)
    (states : ℕ → Option S) (layers : List (List L')) (l : ℕ) (x : Tensor3 K) :
    layersLoop fwd states l (layers.map (·.map f)) x = layersLoop (fun d => fwd (f d)) states l layers x := by
  have hd : ∀ (dirs : List L') (l d : ℕ) (x : Tensor3 K), directionsLoop fwd states l x d (dirs.map f) =
      directionsLoop (fun d => fwd (f d)) states l x d dirs := by
    intro dirs
    induction dirs with
    | nil => intro l d x; rfl
    | cons a as ih =>
      intro l d x
      simp only [List.map_cons, directionsLoop, ih]
  induction layers generalizing l x with
  | nil => rfl
  | cons a as ih => simp only [List.map_cons, layersLoop, hd, ih]

/-- A change of the sequences that every direction and the concatenation commute with goes through a stack. -/
theorem layersLoop_conj (fwd : L → Tensor3 K → S → Option (Tensor3 K × R))
    (fwd' : L → Tensor3 K → S' → Option (Tensor3 K × R')) (G : Tensor3 K → Prop) (P : S → Prop)
    (φ : Tensor3 K → Tensor3 K) (σ : S → S') (ρ : R → R') (states : ℕ → Option S) (states' : ℕ → Option S')
    (hP : ∀ i, ∀ s ∈ states i, P s) (hs : ∀ i, states' i = (states i).map σ)
    (hcat : ∀ x y, G x → G y → G (catLast x y) ∧ catLast (φ x) (φ y) = φ (catLast x y))
    (layers : List (List L))
    (hf : ∀ ds ∈ layers, ∀ d ∈ ds, ∀ x, G x → ∀ s, P s → fwd' d (φ x) (σ s) = (fwd d x s).map (fun r => (φ r.1, ρ r.2)) ∧
      ∀ r ∈ fwd d x s, G r.1) (l : ℕ) (x : Tensor3 K) (hx : G x) :
    layersLoop fwd' states' l layers (φ x) =
      (layersLoop fwd states l layers x).map fun r => (φ r.1, r.2.map ρ) := by
  have hdir : ∀ (l : ℕ) (x : Tensor3 K), G x → ∀ (dirs : List L), (∀ d ∈ dirs, ∀ x, G x → ∀ s, P s →
        fwd' d (φ x) (σ s) = (fwd d x s).map (fun r => (φ r.1, ρ r.2)) ∧ ∀ r ∈ fwd d x s, G r.1) → ∀ d : ℕ,
      directionsLoop fwd' states' l (φ x) d dirs =
        (directionsLoop fwd states l x d dirs).map (fun rs => rs.map fun r => (φ r.1, ρ r.2)) ∧
      ∀ rs ∈ directionsLoop fwd states l x d dirs, ∀ r ∈ rs, G r.1 := by
    intro l x hx dirs hf
    induction dirs with
    | nil =>
      intro d
      refine ⟨rfl, ?_⟩
      intro rs hrs r hr
      simp only [directionsLoop, Option.mem_def, Option.some.injEq] at hrs
      subst hrs
      simp at hr
    | cons a as ih =>
      intro d
      obtain ⟨ih1, ih2⟩ := ih (fun d hd => hf d (by simp [hd])) (d + 1)
      simp only [directionsLoop, hs, ih1]
      cases hst : states (2 * l + d) with
      | none => simp
      | some s =>
        obtain ⟨h1, h2⟩ := hf a (by simp) x hx s (hP _ s hst)
        simp only [Option.map_some, Option.bind_some, h1]
        cases hfw : fwd a x s with
        | none => simp
        | some r =>
          simp only [Option.map_some, Option.bind_some]
          cases hrec : directionsLoop fwd states l x (d + 1) as with
          | none => simp
          | some rs =>
            refine ⟨by simp, ?_⟩
            intro rs' hrs' r' hr'
            simp only [Option.map_some, Option.mem_def, Option.some.injEq] at hrs'
            subst hrs'
            rw [List.mem_cons] at hr'
            rcases hr' with rfl | hr'
            · exact h2 _ hfw
            · exact ih2 rs hrec r' hr'
  have hcatAll : ∀ xs : List (Tensor3 K), (∀ x ∈ xs, G x) →
      catLastAll (xs.map φ) = (catLastAll xs).map φ ∧ ∀ o ∈ catLastAll xs, G o := by
    intro xs hxs
    cases xs with
    | nil => exact ⟨rfl, by simp [catLastAll]⟩
    | cons a as =>
      have : ∀ (as : List (Tensor3 K)) (a : Tensor3 K), G a → (∀ x ∈ as, G x) →
          (as.map φ).foldl catLast (φ a) = φ (as.foldl catLast a) ∧ G (as.foldl catLast a) := by
        intro as
        induction as with
        | nil => intro a ha _; exact ⟨rfl, ha⟩
        | cons b bs ih =>
          intro a ha hb
          obtain ⟨g, e⟩ := hcat a b ha (hb b (by simp))
          simp only [List.map_cons, List.foldl_cons, e]
          exact ih _ g (fun x hx => hb x (by simp [hx]))
      obtain ⟨e, g⟩ := this as a (hxs a (by simp)) (fun x hx => hxs x (by simp [hx]))
      refine ⟨by simp only [List.map_cons, catLastAll, e, Option.map_some], ?_⟩
      intro o ho
      simp only [catLastAll, Option.mem_def, Option.some.injEq] at ho
      rw [← ho]
      exact g
  induction layers generalizing l x with
  | nil => rfl
  | cons dirs layers ih =>
    obtain ⟨h1, h2⟩ := hdir l x hx dirs (hf dirs (by simp)) 0
    simp only [layersLoop, h1]
    cases hd : directionsLoop fwd states l x 0 dirs with
    | none => rfl
    | some rs =>
      simp only [Option.map_some, Option.bind_some]
      obtain ⟨c1, c2⟩ := hcatAll (rs.map (·.1)) (by
        intro y hy
        rw [List.mem_map] at hy
        obtain ⟨r, hr, rfl⟩ := hy
        exact h2 rs hd r hr)
      have e : (rs.map fun r => (φ r.1, ρ r.2)).map (·.1) = (rs.map (·.1)).map φ := by simp
      rw [e, c1]
      cases hc : catLastAll (rs.map (·.1)) with
      | none => rfl
      | some out =>
        simp only [Option.map_some, Option.bind_some]
        rw [ih (fun ds hds => hf ds (by simp [hds])) (l + 1) out (c2 out hc)]
        cases layersLoop fwd states (l + 1) layers out <;> simp

end Loops

/-! ## Exchanging the dimensions -/

section Swap
variable {K : Type*}

theorem swapDims_get {B : ℕ} {x : Tensor3 K} (h : ∀ r ∈ x, r.length = B) (t b : ℕ) (hb : b < B) :
    ((swapDims B x)[b]?.bind (·[t]?)) = (x[t]?.bind (·[b]?)) := by
  unfold swapDims
  rw [List.getElem?_map, List.getElem?_range hb]
  simp only [Option.map_some, Option.bind_some, List.getElem?_map]
  cases ht : x[t]? with
  | none => rfl
  | some r =>
    have hl := h r (List.mem_of_getElem? ht)
    simp only [Option.map_some, Option.bind_some]
    rw [List.getD_eq_getElem _ _ (by omega), List.getElem?_eq_getElem (by omega)]

theorem unbind_swap {B : ℕ} (hB : 0 < B) {x : Tensor3 K} (hx : IsSequence B x) : unbind true (swapDims B x) = x := by
  unfold unbind
  simp only [if_true]
  have hlen : ((swapDims B x).headD []).length = x.length := by
    unfold swapDims
    cases B with
    | zero => omega
    | succ n => simp [List.range_succ_eq_map]
  rw [hlen]
  apply List.ext_getElem
  · simp
  · intro t h1 h2
    simp only [List.getElem_map, List.getElem_range]
    have hl : x[t].length = B := hx.2 _ (List.getElem_mem h2)
    unfold swapDims
    rw [List.map_map]
    apply List.ext_getElem
    · simp [hl]
    · intro b k1 k2
      simp only [List.getElem_map, List.getElem_range, Function.comp]
      rw [List.getD_eq_getElem _ _ (by simpa using h2)]
      simp only [List.getElem_map]
      rw [List.getD_eq_getElem _ _ k2]

theorem catSeq_swap {B : ℕ} {x : Tensor3 K} (hx : IsSequence B x) : catSeq true x = some (swapDims B x) := by
  cases x with
  | nil => exact absurd rfl hx.1
  | cons o os =>
    unfold catSeq swapDims
    simp only [if_true]
    rw [hx.2 o (by simp)]

theorem catLast_swap {B : ℕ} {x y : Tensor3 K} (hx : IsSequence B x) (hy : IsSequence B y) (h : x.length = y.length) :
    catLast (swapDims B x) (swapDims B y) = swapDims B (catLast x y) := by
  unfold catLast swapDims
  apply List.ext_getElem
  · simp
  · intro b h1 h2
    simp only [List.getElem_zipWith, List.getElem_map, List.getElem_range]
    have hb : b < B := by simpa using h2
    apply List.ext_getElem
    · simp
    · intro t k1 k2
      have ht : t < x.length := by simp at k1; omega
      have ht' : t < y.length := by omega
      have e1 := hx.2 _ (List.getElem_mem ht)
      have e2 := hy.2 _ (List.getElem_mem ht')
      simp only [List.getElem_zipWith, List.getElem_map]
      rw [List.getD_eq_getElem _ _ (by omega), List.getD_eq_getElem _ _ (by omega),
        List.getD_eq_getElem _ _ (by rw [List.length_zipWith]; omega)]
      simp

variable [Field K] [DecidableEq K]

theorem quantizeInput_swap {B : ℕ} {qo : Bool} {io : ActProxy K} {x : Tensor3 K} (hx : ∀ b ∈ x, b.length = B) :
    maybeQuantizeInput qo io (swapDims B x) = swapDims B (maybeQuantizeInput qo io x) := by
  unfold maybeQuantizeInput
  cases qo with
  | true => rfl
  | false =>
    simp only [Bool.false_eq_true, if_false]
    unfold swapDims
    rw [List.map_map]
    apply List.map_congr_left
    intro b hb
    simp only [Function.comp, List.map_map]
    apply List.map_congr_left
    intro r hr
    have hl := hx r hr
    simp only [Function.comp]
    rw [List.mem_range] at hb
    rw [List.getD_eq_getElem _ _ (by omega), List.getD_eq_getElem _ _ (by simpa using (by omega))]
    simp

theorem quantizeState_swap {B hidden : ℕ} {x : Tensor3 K} (hx : IsSequence B x) (q : ActProxy K) (st : Option (Batch K)) :
    maybeQuantizeState true hidden (swapDims B x) q st = maybeQuantizeState false hidden x q st := by
  cases st with
  | some s => rfl
  | none =>
    simp only [maybeQuantizeState, if_true, Bool.false_eq_true, if_false, head_length hx]
    simp [swapDims]

theorem RnnLayer.forward_swap (l : RnnLayer K) {B : ℕ} (hB : 0 < B) (inp : Tensor3 K) (h : IsSequence B inp)
    (st : Option (Batch K)) (hst : ∀ s ∈ st, s.length = B) :
    ({ l with batchFirst := true } : RnnLayer K).forward (swapDims B inp) st =
      (({ l with batchFirst := false } : RnnLayer K).forward inp st).map fun r => (⟨swapDims B r.1.value, r.1.info⟩, r.2)
    := by
  have hq := quantizeInput_isSequence (qo := l.quantizeOutputOnly) (io := l.cell.outputQuant) h
  rw [({ l with batchFirst := false } : RnnLayer K).forward_seq rfl inp h]
  have h1 := ({ l with batchFirst := true } : RnnLayer K).forward_eq (swapDims B inp) st
  simp only at h1
  rw [quantizeInput_swap h.2, unbind_swap hB hq] at h1
  rw [h1 hq.1]
  have hstart : ({ l with batchFirst := true } : RnnLayer K).start (swapDims B inp) st =
      iniState B l.hidden l.cell.outputQuant st := by
    unfold RnnLayer.start
    simp only
    rw [quantizeInput_swap h.2, quantizeState_swap hq, maybeQuantizeState_eq hq]
  rw [hstart]
  have := l.run_isSequence (iniState B l.hidden l.cell.outputQuant st) (iniState_length hst) inp h
  have e := catSeq_swap this.1
  unfold RnnLayer.run at e
  have e' : catSeq true (directionRun l.reverse ({ l with batchFirst := true } : RnnLayer K).step id
      (iniState B l.hidden l.cell.outputQuant st)
      (maybeQuantizeInput l.quantizeOutputOnly l.cell.outputQuant inp)).1 = _ := e
  rw [e']
  rfl

theorem LstmLayer.forward_swap (l : LstmLayer K) {B : ℕ} (hB : 0 < B) (inp : Tensor3 K) (h : IsSequence B inp)
    (st ct : Option (Batch K)) (hst : ∀ s ∈ st, s.length = B) (hct : ∀ s ∈ ct, s.length = B) :
    ({ l with batchFirst := true } : LstmLayer K).forward (swapDims B inp) st ct =
      (({ l with batchFirst := false } : LstmLayer K).forward inp st ct).map fun r =>
        (⟨swapDims B r.1.value, r.1.info⟩, r.2) := by
  have hq := quantizeInput_isSequence (qo := l.quantizeOutputOnly) (io := l.cell.outputQuant) h
  cases hg : l.gates with
  | none =>
    have g1 : ({ l with batchFirst := true } : LstmLayer K).gates = none := hg
    have g2 : ({ l with batchFirst := false } : LstmLayer K).gates = none := hg
    unfold LstmLayer.forward
    simp only [g1, g2]
    rfl
  | some g =>
    rw [({ l with batchFirst := false } : LstmLayer K).forward_seq rfl g hg inp h]
    have h1 := ({ l with batchFirst := true } : LstmLayer K).forward_eq g hg (swapDims B inp) st ct
    simp only at h1
    rw [quantizeInput_swap h.2, unbind_swap hB hq] at h1
    rw [h1 hq.1]
    have hstart : ({ l with batchFirst := true } : LstmLayer K).start (swapDims B inp) st ct =
        (iniState B l.hidden l.cell.outputQuant st, iniState B l.hidden l.cell.cellStateQuant ct) := by
      unfold LstmLayer.start
      simp only
      rw [quantizeInput_swap h.2, quantizeState_swap hq, quantizeState_swap hq, maybeQuantizeState_eq hq,
        maybeQuantizeState_eq hq]
    rw [hstart]
    have := l.run_isSequence g (iniState B l.hidden l.cell.outputQuant st, iniState B l.hidden l.cell.cellStateQuant ct)
      ⟨iniState_length hst, iniState_length hct⟩ inp h
    have e := catSeq_swap this.1
    unfold LstmLayer.run at e
    rw [e]
    rfl

end Swap

/-! ## One sample of a batch -/

section Pick
variable {K : Type*}

theorem pick_map {b : ℕ} {x : Batch K} (hb : b < x.length) (f : List K → List K) : pick b (x.map f) = (pick b x).map f := by
  unfold pick
  rw [List.getD_eq_getElem _ _ (by simpa using hb), List.getD_eq_getElem _ _ hb]
  simp

theorem pick_zipWith {b : ℕ} {x y : Batch K} (hx : b < x.length) (hy : b < y.length) (f : List K → List K → List K) :
    pick b (List.zipWith f x y) = List.zipWith f (pick b x) (pick b y) := by
  unfold pick
  rw [List.getD_eq_getElem _ _ (by simp only [List.length_zipWith]; omega), List.getD_eq_getElem _ _ hx, List.getD_eq_getElem _ _ hy]
  simp

variable [Field K]

theorem pick_acc {b : ℕ} (g : QuantGate K) {x h : Batch K} (hx : b < x.length) (hh : b < h.length) :
    g.acc (pick b x) (pick b h) = pick b (g.acc x h) := by
  unfold QuantGate.acc addVec add linear
  cases g.bias with
  | none =>
    simp only
    rw [pick_map (by simp only [List.length_zipWith, List.length_map]; omega), pick_zipWith (by simpa using hx) (by simpa using hh), pick_map hx, pick_map hh]
  | some v =>
    simp only
    rw [pick_map (by simp only [List.length_zipWith, List.length_map]; omega), pick_zipWith (by simpa using hx) (by simpa using hh), pick_map hx, pick_map hh]

theorem pick_fast {b : ℕ} (q : ActProxy K) {x : Batch K} (hx : b < x.length) :
    (q.fast (pick b x)).value = pick b (q.fast x).value := by
  rw [ActProxy.fast_value, ActProxy.fast_value, pick_map hx]

theorem fast_length (q : ActProxy K) (x : Batch K) : (q.fast x).value.length = x.length := by
  rw [ActProxy.fast_value, List.length_map]

variable [DecidableEq K]

theorem RnnLayer.step_pick (l : RnnLayer K) {b : ℕ} {x h : Batch K} (hx : b < x.length) (hh : b < h.length) :
    l.step (pick b h) (pick b x) = pick b (l.step h x) := by
  have ha : b < (l.gate.fwd.acc x h).length := by rw [acc_length]; omega
  unfold RnnLayer.step RnnCell.forwardIter
  simp only
  rw [pick_acc _ hx hh, pick_fast _ ha, ← pick_map (by rw [fast_length]; exact ha), pick_fast]
  rw [List.length_map, fast_length]
  exact ha

theorem LstmCell.step_pick (c : LstmCell K) (g : LstmGates K) {b : ℕ} {x h s : Batch K} (hx : b < x.length)
    (hh : b < h.length) (hs : b < s.length) :
    c.step g (pick b h, pick b s) (pick b x) = (pick b (c.step g (h, s) x).1, pick b (c.step g (h, s) x).2) := by
  have hacc : ∀ q : QuantGate K, b < (q.acc x h).length := fun q => by rw [acc_length]; omega
  have hgate : ∀ (q : QuantGate K) (p p' : ActProxy K), (p'.fast (p.fast (q.acc (pick b x) (pick b h))).value).value =
      pick b (p'.fast (p.fast (q.acc x h)).value).value := by
    intro q p p'
    rw [pick_acc _ hx hh, pick_fast _ (hacc q), pick_fast _ (by rw [fast_length]; exact hacc q)]
  have hi : c.inputGate g (pick b x) (pick b h) = pick b (c.inputGate g x h) := hgate _ _ _
  have hc : c.cellGate g (pick b x) (pick b h) = pick b (c.cellGate g x h) := hgate _ _ _
  have ho : c.outGate g (pick b x) (pick b h) = pick b (c.outGate g x h) := hgate _ _ _
  obtain ⟨l1, l2, l3, l4⟩ := c.gates_length g x h
  have k1 : b < (c.inputGate g x h).length := by omega
  have k2 : b < (c.forgetGate g x h).length := by omega
  have k3 : b < (c.cellGate g x h).length := by omega
  have k4 : b < (c.outGate g x h).length := by omega
  have hf : c.forgetGate g (pick b x) (pick b h) = pick b (c.forgetGate g x h) := by
    unfold LstmCell.forgetGate
    cases c.cifg with
    | false =>
      simp only [Bool.false_eq_true, if_false]
      exact hgate _ _ _
    | true =>
      simp only [if_true, hi]
      unfold sub
      cases c.inputSigmoidQuant.quant with
      | none =>
        simp only
        rw [pick_zipWith (by simpa using k1) k1, pick_map k1]
      | some q =>
        simp only
        rw [pick_zipWith (by simpa using k1) k1, pick_map (by simpa using k1), pick_map k1]
  unfold LstmCell.step LstmCell.forwardIter
  simp only
  rw [hi, hf, hc, ho]
  unfold mul add
  rw [← pick_zipWith k2 hs, ← pick_zipWith k1 k3, pick_fast _ (by simp only [List.length_zipWith]; omega), pick_fast _ (by simp only [List.length_zipWith]; omega),
    ← pick_zipWith (by rw [fast_length, List.length_zipWith]; omega) (by rw [fast_length, List.length_zipWith]; omega),
    pick_fast _ (by simp only [List.length_zipWith, fast_length]; omega),
    pick_fast _ (by simp only [List.length_zipWith, fast_length]; omega),
    ← pick_zipWith k4 (by simp only [List.length_zipWith, fast_length]; omega),
    pick_fast _ (by simp only [List.length_zipWith, fast_length]; omega)]

theorem directionRun_conj {S X Y : Type*} (reverse : Bool) (step : S → X → S) (out : S → Y) (σ : S → S) (ξ : X → X)
    (υ : Y → Y) (P : S → Prop) (s : S) (xs : List X) (h0 : P s)
    (hs : ∀ s, P s → ∀ x ∈ xs, P (step s x) ∧ step (σ s) (ξ x) = σ (step s x)) (ho : ∀ s, P s → out (σ s) = υ (out s)) :
    directionRun reverse step out (σ s) (xs.map ξ) =
      ((directionRun reverse step out s xs).1.map υ, σ (directionRun reverse step out s xs).2) := by
  have key : ∀ (xs : List X) (s : S), P s → (∀ s, P s → ∀ x ∈ xs, P (step s x) ∧ step (σ s) (ξ x) = σ (step s x)) →
      (runStates step (σ s) (xs.map ξ)).map out = (runStates step s xs).map (fun t => υ (out t)) ∧
      finalState step (σ s) (xs.map ξ) = σ (finalState step s xs) := by
    intro xs
    induction xs with
    | nil => intro s _ _; exact ⟨rfl, rfl⟩
    | cons x xs ih =>
      intro s h0 hs
      obtain ⟨p, e⟩ := hs s h0 x (by simp)
      obtain ⟨i1, i2⟩ := ih (step s x) p (fun s h y hy => hs s h y (by simp [hy]))
      unfold finalState at i2 ⊢
      simp only [List.map_cons, runStates, List.foldl_cons, e, i1, i2, ho _ p, and_self]
  cases reverse with
  | false =>
    obtain ⟨h1, h2⟩ := key xs s h0 hs
    simp only [directionRun, Bool.false_eq_true, if_false]
    rw [h1, h2, List.map_map]
    rfl
  | true =>
    obtain ⟨h1, h2⟩ := key xs.reverse s h0 (fun s h x hx => hs s h x (by simpa using hx))
    simp only [directionRun, if_true]
    rw [← List.map_reverse, List.map_reverse, h1, h2, List.map_map, ← List.map_reverse]
    rfl

theorem quantizeInput_pick {B b : ℕ} (hb : b < B) (qo : Bool) (io : ActProxy K) {x : Tensor3 K} (hx : IsSequence B x) :
    maybeQuantizeInput qo io (pickSeq b x) = pickSeq b (maybeQuantizeInput qo io x) := by
  unfold maybeQuantizeInput pickSeq
  cases qo with
  | true => rfl
  | false =>
    simp only [Bool.false_eq_true, if_false, List.map_map]
    apply List.map_congr_left
    intro r hr
    simp only [Function.comp]
    rw [pick_map (by rw [hx.2 r hr]; exact hb)]

theorem pickSeq_isSequence {B : ℕ} (b : ℕ) {x : Tensor3 K} (hx : IsSequence B x) : IsSequence 1 (pickSeq b x) := by
  refine ⟨by simpa [pickSeq] using hx.1, ?_⟩
  intro r hr
  unfold pickSeq at hr
  rw [List.mem_map] at hr
  obtain ⟨r', -, rfl⟩ := hr
  rfl

theorem iniState_pick {B b hidden : ℕ} (hb : b < B) (q : ActProxy K) (st : Option (Batch K))
    (hst : ∀ s ∈ st, s.length = B) :
    iniState 1 hidden q (st.map (pick b)) = pick b (iniState B hidden q st) := by
  cases st with
  | none =>
    simp only [Option.map_none, iniState, pick]
    rw [List.getD_eq_getElem _ _ (by simpa using hb)]
    simp
  | some s =>
    simp only [Option.map_some, iniState]
    rw [pick_map (by rw [hst s rfl]; exact hb)]

theorem RnnLayer.forward_pick (l : RnnLayer K) (hl : l.batchFirst = false) {B b : ℕ} (hb : b < B) (inp : Tensor3 K)
    (h : IsSequence B inp) (st : Option (Batch K)) (hst : ∀ s ∈ st, s.length = B) :
    l.forward (pickSeq b inp) (st.map (pick b)) =
      (l.forward inp st).map fun r => (⟨pickSeq b r.1.value, r.1.info⟩, ⟨pickSeq b r.2.value, r.2.info⟩) := by
  have hq := quantizeInput_isSequence (qo := l.quantizeOutputOnly) (io := l.cell.outputQuant) h
  rw [l.forward_seq hl inp h, l.forward_seq hl _ (pickSeq_isSequence b h), quantizeInput_pick hb _ _ h,
    iniState_pick hb _ _ hst]
  have := directionRun_conj l.reverse l.step id (pick b) (pick b) (pick b) (fun s => s.length = B)
    (iniState B l.hidden l.cell.outputQuant st) (maybeQuantizeInput l.quantizeOutputOnly l.cell.outputQuant inp)
    (iniState_length hst) (by
      intro s hs x hx
      have hxl := hq.2 x hx
      refine ⟨by rw [l.step_length]; omega, l.step_pick (by omega) (by omega)⟩) (fun s _ => rfl)
  unfold pickSeq
  rw [this]
  rfl

theorem LstmLayer.forward_pick (l : LstmLayer K) (hl : l.batchFirst = false) {B b : ℕ} (hb : b < B) (inp : Tensor3 K)
    (h : IsSequence B inp) (st ct : Option (Batch K)) (hst : ∀ s ∈ st, s.length = B) (hct : ∀ s ∈ ct, s.length = B) :
    l.forward (pickSeq b inp) (st.map (pick b)) (ct.map (pick b)) =
      (l.forward inp st ct).map fun r => (⟨pickSeq b r.1.value, r.1.info⟩, ⟨pickSeq b r.2.1.value, r.2.1.info⟩,
        ⟨pickSeq b r.2.2.value, r.2.2.info⟩) := by
  have hq := quantizeInput_isSequence (qo := l.quantizeOutputOnly) (io := l.cell.outputQuant) h
  cases hg : l.gates with
  | none =>
    unfold LstmLayer.forward
    simp only [hg]
    rfl
  | some g =>
    rw [l.forward_seq hl g hg inp h, l.forward_seq hl g hg _ (pickSeq_isSequence b h), quantizeInput_pick hb _ _ h,
      iniState_pick hb _ _ hst, iniState_pick hb _ _ hct]
    have := directionRun_conj l.reverse (l.cell.step g) Prod.fst (fun s => (pick b s.1, pick b s.2)) (pick b) (pick b)
      (fun s => s.1.length = B ∧ s.2.length = B)
      (iniState B l.hidden l.cell.outputQuant st, iniState B l.hidden l.cell.cellStateQuant ct)
      (maybeQuantizeInput l.quantizeOutputOnly l.cell.outputQuant inp)
      ⟨iniState_length hst, iniState_length hct⟩ (by
        intro s hs x hx
        have hxl := hq.2 x hx
        exact ⟨l.cell.step_length g s x hxl hs.1 hs.2, l.cell.step_pick g (by omega) (by omega) (by omega)⟩)
      (fun s _ => rfl)
    unfold pickSeq
    rw [this]
    rfl

theorem catLast_isSequence {B : ℕ} {x y : Tensor3 K} (hx : IsSequence B x) (hy : IsSequence B y) :
    IsSequence B (catLast x y) := by
  unfold catLast
  refine ⟨?_, ?_⟩
  · intro h0
    have := congrArg List.length h0
    rw [List.length_zipWith, List.length_nil] at this
    have h1 := List.length_pos_of_ne_nil hx.1
    have h2 := List.length_pos_of_ne_nil hy.1
    omega
  · intro b hb
    obtain ⟨i, hi, rfl⟩ := List.getElem_of_mem hb
    rw [List.length_zipWith] at hi
    rw [List.getElem_zipWith, List.length_zipWith, hx.2 _ (List.getElem_mem _), hy.2 _ (List.getElem_mem _), Nat.min_self]

theorem catLast_pick {B b : ℕ} (hb : b < B) {x y : Tensor3 K} (hx : IsSequence B x) (hy : IsSequence B y) :
    catLast (pickSeq b x) (pickSeq b y) = pickSeq b (catLast x y) := by
  unfold catLast pickSeq
  apply List.ext_getElem
  · simp
  · intro t h1 h2
    have ht : t < x.length := by simp at h1; omega
    have ht' : t < y.length := by simp at h1; omega
    have e1 := hx.2 _ (List.getElem_mem ht)
    have e2 := hy.2 _ (List.getElem_mem ht')
    simp only [List.getElem_zipWith, List.getElem_map]
    rw [pick_zipWith (by omega) (by omega)]

end Pick

end Brevitas.Rnn
