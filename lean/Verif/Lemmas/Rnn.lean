import Verif.Model.Rnn
import Verif.Spec.Recurrence

set_option linter.unusedSectionVars false

/-!
# Lemmas about recurrent layers
-/

namespace Brevitas.Rnn

open Brevitas.Spec (runStates finalState directionRun batchStep)

/-! ## The loop over time -/

/-- The results of all steps, in the order in which they are made. -/
def scanOut {X S T : Type*} (iter : X → S → T) (next : T → S) : S → List X → List T
  | _, [] => []
  | s, x :: xs => iter x s :: scanOut iter next (next (iter x s)) xs

section Loop
variable {X S T : Type*} (iter : X → S → T) (next : T → S)

theorem pyIndex_nat {α : Type*} (xs : List α) (i : ℕ) : pyIndex xs (i : ℤ) = xs[i]? := by
  unfold pyIndex
  rw [if_pos (by omega)]
  simp

theorem pyIndex_last {α : Type*} (xs : List α) : pyIndex xs (-1) = xs.getLast? := by
  unfold pyIndex
  rw [if_neg (by omega)]
  cases xs with
  | nil => simp
  | cons x xs =>
    rw [if_pos (by simp; omega), List.getLast?_eq_getElem?]
    congr 1
    simp only [List.length_cons]
    omega

theorem timeLoop_fwd (xs : List X) (n : ℕ) : ∀ (i : ℕ) (s : S) (acc : List T), i + n = xs.length →
    timeLoop iter next xs 1 n (i : ℤ) s acc = some (acc ++ scanOut iter next s (xs.drop i)) := by
  induction n with
  | zero =>
    intro i s acc h
    rw [List.drop_of_length_le (by omega)]
    simp [timeLoop, scanOut]
  | succ n ih =>
    intro i s acc h
    have hi : i < xs.length := by omega
    rw [timeLoop, pyIndex_nat, List.getElem?_eq_getElem hi, Option.bind_some]
    have := ih (i + 1) (next (iter xs[i] s)) (acc ++ [iter xs[i] s]) (by omega)
    push_cast at this
    simp only
    rw [this, List.drop_eq_getElem_cons hi, scanOut]
    simp

theorem timeLoop_rev (xs : List X) (n : ℕ) : ∀ (s : S) (acc : List T), n ≤ xs.length →
    timeLoop iter next xs (-1) n ((n : ℤ) - 1) s acc = some (acc ++ scanOut iter next s (xs.take n).reverse) := by
  induction n with
  | zero => intro s acc _; simp [timeLoop, scanOut]
  | succ n ih =>
    intro s acc h
    have hn : n < xs.length := by omega
    have e : ((n + 1 : ℕ) : ℤ) - 1 = (n : ℤ) := by omega
    rw [timeLoop, e, pyIndex_nat, List.getElem?_eq_getElem hn, Option.bind_some]
    have := ih (next (iter xs[n] s)) (acc ++ [iter xs[n] s]) (by omega)
    simp only
    rw [← sub_eq_add_neg, this, List.take_succ_eq_append_getElem hn, List.reverse_append, List.reverse_singleton,
      List.singleton_append, scanOut]
    simp

theorem cellLoop_eq (reverse : Bool) (xs : List X) (s : S) :
    cellLoop iter next reverse xs s = some (scanOut iter next s (if reverse then xs.reverse else xs)) := by
  unfold cellLoop
  cases reverse with
  | false =>
    have := timeLoop_fwd iter next xs xs.length 0 s [] (by omega)
    simpa using this
  | true =>
    have := timeLoop_rev iter next xs xs.length s [] (le_refl _)
    simpa using this

theorem scanOut_next (s : S) (xs : List X) :
    (scanOut iter next s xs).map next = runStates (fun s x => next (iter x s)) s xs := by
  induction xs generalizing s with
  | nil => rfl
  | cons x xs ih => simp [scanOut, runStates, ih]

theorem scanOut_length (s : S) (xs : List X) : (scanOut iter next s xs).length = xs.length := by
  induction xs generalizing s with
  | nil => rfl
  | cons x xs ih => simp [scanOut, ih]

theorem scanOut_mem {s : S} {xs : List X} {t : T} (h : t ∈ scanOut iter next s xs) : ∃ x ∈ xs, ∃ s', t = iter x s' := by
  induction xs generalizing s with
  | nil => simp [scanOut] at h
  | cons x xs ih =>
    rw [scanOut, List.mem_cons] at h
    rcases h with h | h
    · exact ⟨x, by simp, s, h⟩
    · obtain ⟨y, hy, s', e⟩ := ih h
      exact ⟨y, by simp [hy], s', e⟩

theorem scanOut_last (s : S) (xs : List X) (h : xs ≠ []) :
    ∃ t, (scanOut iter next s xs).getLast? = some t ∧ next t = finalState (fun s x => next (iter x s)) s xs := by
  induction xs generalizing s with
  | nil => exact absurd rfl h
  | cons x xs ih =>
    cases xs with
    | nil => exact ⟨iter x s, by simp [scanOut], by simp [finalState]⟩
    | cons y ys =>
      obtain ⟨t, ht, e⟩ := ih (next (iter x s)) (by simp)
      refine ⟨t, ?_, by rw [e]; simp [finalState]⟩
      rw [scanOut, List.getLast?_cons, ht]
      rfl

end Loop

/-! ## Recurrences -/

section Run
variable {S X Y : Type*} (step : S → X → S)

theorem runStates_append (s : S) (xs ys : List X) :
    runStates step s (xs ++ ys) = runStates step s xs ++ runStates step (finalState step s xs) ys := by
  induction xs generalizing s with
  | nil => rfl
  | cons x xs ih => simp [runStates, finalState, ih]

theorem finalState_append (s : S) (xs ys : List X) :
    finalState step s (xs ++ ys) = finalState step (finalState step s xs) ys := List.foldl_append

theorem runStates_length (s : S) (xs : List X) : (runStates step s xs).length = xs.length := by
  induction xs generalizing s with
  | nil => rfl
  | cons x xs ih => simp [runStates, ih]

theorem runStates_getLast (s : S) (xs : List X) (h : xs ≠ []) :
    (runStates step s xs).getLast? = some (finalState step s xs) := by
  induction xs generalizing s with
  | nil => exact absurd rfl h
  | cons x xs ih =>
    cases xs with
    | nil => simp [runStates, finalState]
    | cons y ys =>
      rw [runStates, List.getLast?_cons, ih _ (by simp)]
      rfl

theorem runStates_mem {s : S} {xs : List X} {t : S} (h : t ∈ runStates step s xs) :
    ∃ x ∈ xs, ∃ s', t = step s' x := by
  induction xs generalizing s with
  | nil => simp [runStates] at h
  | cons x xs ih =>
    rw [runStates, List.mem_cons] at h
    rcases h with h | h
    · exact ⟨x, by simp, s, h⟩
    · obtain ⟨y, hy, s', e⟩ := ih h
      exact ⟨y, by simp [hy], s', e⟩

/-- An invariant of the steps holds of every state. -/
theorem runStates_inv {P : S → Prop} {s : S} {xs : List X} (h0 : P s) (hs : ∀ s, P s → ∀ x ∈ xs, P (step s x)) :
    (∀ t ∈ runStates step s xs, P t) ∧ P (finalState step s xs) := by
  induction xs generalizing s with
  | nil => exact ⟨by simp [runStates], h0⟩
  | cons x xs ih =>
    have h1 := hs s h0 x (by simp)
    have := ih h1 (fun s hs' y hy => hs s hs' y (by simp [hy]))
    refine ⟨?_, this.2⟩
    intro t ht
    rw [runStates, List.mem_cons] at ht
    rcases ht with rfl | ht
    · exact h1
    · exact this.1 t ht

theorem directionRun_length (reverse : Bool) (out : S → Y) (s : S) (xs : List X) :
    (directionRun reverse step out s xs).1.length = xs.length := by
  unfold directionRun
  cases reverse <;> simp [runStates_length]

/-- Two recurrences whose steps agree, run the same. -/
theorem directionRun_congr {step' : S → X → S} (reverse : Bool) (out : S → Y) (s : S) (xs : List X)
    (h : ∀ s x, step s x = step' s x) : directionRun reverse step out s xs = directionRun reverse step' out s xs := by
  have : step = step' := by funext s x; exact h s x
  rw [this]

end Run

/-! ## Proxies -/

section Proxy
variable {K : Type*}

/-- The element-wise function of the fast path of a proxy. -/
def ActProxy.fastFn (p : ActProxy K) (x : K) : K :=
  match p.quant with
  | none => p.actFn x
  | some q => q.fn (p.actFn x)

theorem ActProxy.fast_value (p : ActProxy K) (x : Batch K) : (p.fast x).value = x.map (·.map p.fastFn) := by
  unfold ActProxy.fast ActProxy.fastFn
  cases p.quant <;> rfl

theorem ActProxy.fast_info (p : ActProxy K) (x : Batch K) : (p.fast x).info = p.quant.map (·.info) := by
  unfold ActProxy.fast
  cases p.quant <;> rfl

theorem ActProxy.forward_eq (p : ActProxy K) (h : p.disableQuant = false) (x : K) : p.forward x = p.fastFn x := by
  unfold ActProxy.forward ActProxy.fastFn ActProxy.isQuantEnabled
  rw [h]
  cases p.quant <;> simp

theorem ActProxy.forward_off (p : ActProxy K) (h : p.quant = none) (x : K) : p.forward x = p.actFn x := by
  unfold ActProxy.forward ActProxy.isQuantEnabled
  rw [h]
  simp

theorem ActProxy.fastFn_off (p : ActProxy K) (h : p.quant = none) (x : K) : p.fastFn x = p.actFn x := by
  unfold ActProxy.fastFn
  rw [h]

theorem ActProxy.actFn_off (p : ActProxy K) (h : p.act = none) (x : K) : p.actFn x = x := by
  unfold ActProxy.actFn
  rw [h]
  rfl

theorem map_map_id {f : K → K} (h : ∀ v, f v = v) (x : Batch K) : x.map (·.map f) = x := by
  have : f = id := funext h
  rw [this]
  simp

end Proxy

/-! ## Layers -/

section Layer
variable {K : Type*} [Field K] [DecidableEq K]

/-- One step of an RNN layer on values. -/
def RnnLayer.step (l : RnnLayer K) (h x : Batch K) : Batch K := (l.cell.forwardIter l.gate.fwd x h).value

/-- The metadata an RNN layer attaches to its results. -/
def RnnLayer.info (l : RnnLayer K) : Option (Meta K) :=
  if l.returnQT && l.cell.outputQuant.isQuantEnabled then l.cell.outputQuant.quant.map (·.info) else none

/-- The state an RNN layer starts from. -/
def RnnLayer.start (l : RnnLayer K) (inp : Tensor3 K) (st : Option (Batch K)) : Batch K :=
  maybeQuantizeState l.batchFirst l.hidden (maybeQuantizeInput l.quantizeOutputOnly l.cell.outputQuant inp)
    l.cell.outputQuant st

theorem catInfo_const {infos : List (Option (Meta K))} {m : Option (Meta K)} (hne : infos ≠ [])
    (h : ∀ i ∈ infos, i = m) : catInfo infos = some m := by
  cases infos with
  | nil => exact absurd rfl hne
  | cons a as =>
    have ha : a = m := h a (by simp)
    unfold catInfo
    simp only
    rw [if_pos (by
      rw [List.all_eq_true]
      intro x hx
      simp [h x (by simp [hx]), ha])]
    rw [ha]

/-- The batches of a sequence as the layer's own loop sees them. -/
theorem catSeq_false {outs : List (Batch K)} (h : outs ≠ []) : catSeq false outs = some outs := by
  cases outs with
  | nil => exact absurd rfl h
  | cons o os => simp [catSeq]

theorem catSeq_ne {bf : Bool} {outs : List (Batch K)} (h : outs ≠ []) :
    catSeq bf outs = some (if bf then (List.range (outs.headD []).length).map fun b => outs.map fun o' => o'.getD b []
      else outs) := by
  cases outs with
  | nil => exact absurd rfl h
  | cons o os => rfl

theorem packOutputs_eq {bf rev rq : Bool} {io : ActProxy K} {outs : List (QTuple K)} {m : Option (Meta K)}
    (hne : outs ≠ []) (hm : ∀ o ∈ outs, o.info = m) :
    packOutputs bf rev rq io outs =
      (catSeq bf ((if rev then outs.reverse else outs).map (·.value))).map fun v =>
        ⟨v, if rq && io.isQuantEnabled then m else none⟩ := by
  unfold packOutputs
  simp only
  rw [catInfo_const (m := if rq && io.isQuantEnabled then m else none)]
  · rfl
  · cases rev <;> simpa using hne
  · intro i hi
    rw [List.mem_map] at hi
    obtain ⟨o, ho, rfl⟩ := hi
    have : o.info = m := hm o (by cases rev <;> simpa using ho)
    rw [this]

/-- What an RNN layer computes: the recurrence of its step. -/
theorem RnnLayer.forward_eq (l : RnnLayer K) (inp : Tensor3 K) (st : Option (Batch K)) :
    let xs := unbind l.batchFirst (maybeQuantizeInput l.quantizeOutputOnly l.cell.outputQuant inp)
    let r := directionRun l.reverse l.step id (l.start inp st) xs
    xs ≠ [] →
    l.forward inp st = (catSeq l.batchFirst r.1).map fun v => (⟨v, l.info⟩, ⟨[r.2], l.info⟩) := by
  intro xs r hne
  unfold RnnLayer.forward RnnCell.forward
  simp only
  rw [cellLoop_eq, Option.bind_some]
  obtain ⟨ys, hys⟩ : ∃ ys, ys = (if l.reverse = true then xs.reverse else xs) := ⟨_, rfl⟩
  have hyne : ys ≠ [] := by rw [hys]; cases l.reverse <;> simpa using hne
  have hys' : (if l.reverse = true then
      (unbind l.batchFirst (maybeQuantizeInput l.quantizeOutputOnly l.cell.outputQuant inp)).reverse
      else unbind l.batchFirst (maybeQuantizeInput l.quantizeOutputOnly l.cell.outputQuant inp)) = ys := hys.symm
  rw [hys']
  obtain ⟨outs, houts⟩ : ∃ outs, outs = scanOut (fun x s => l.cell.forwardIter l.gate.fwd x s) (·.value)
    (l.start inp st) ys := ⟨_, rfl⟩
  have houts' : scanOut (fun x s => l.cell.forwardIter l.gate.fwd x s) (·.value)
    (maybeQuantizeState l.batchFirst l.hidden (maybeQuantizeInput l.quantizeOutputOnly l.cell.outputQuant inp)
      l.cell.outputQuant st) ys = outs := houts.symm
  rw [houts']
  have hone : outs ≠ [] := by
    intro h
    have := congrArg List.length houts
    rw [scanOut_length, h] at this
    exact hyne (List.length_eq_zero_iff.1 this.symm)
  have hinfo : ∀ o ∈ outs, o.info = l.cell.outputQuant.quant.map (·.info) := by
    intro o ho
    rw [houts] at ho
    obtain ⟨x, -, s', rfl⟩ := scanOut_mem _ _ ho
    exact ActProxy.fast_info _ _
  rw [packOutputs_eq hone hinfo]
  have hval : outs.map (·.value) = runStates l.step (l.start inp st) ys := by
    rw [houts, scanOut_next]; rfl
  have hval' : ((if l.reverse = true then outs.reverse else outs).map (·.value)) = r.1 := by
    have : r.1 = (directionRun l.reverse l.step id (l.start inp st) xs).1 := rfl
    rw [this]
    unfold directionRun
    cases hr : l.reverse with
    | false =>
      rw [hr] at hys
      simp only [Bool.false_eq_true, if_false] at hys ⊢
      rw [hval, hys]; simp
    | true =>
      rw [hr] at hys
      simp only [if_true] at hys ⊢
      rw [List.map_reverse, hval, hys]; simp
  rw [hval']
  obtain ⟨t, ht, hte⟩ := scanOut_last (fun x s => l.cell.forwardIter l.gate.fwd x s) (·.value) (l.start inp st) ys hyne
  rw [← houts] at ht
  have htv : t.value = r.2 := by
    rw [hte]
    have : r.2 = (directionRun l.reverse l.step id (l.start inp st) xs).2 := rfl
    rw [this]
    unfold directionRun
    cases hr : l.reverse with
    | false => rw [hr] at hys; simp only [Bool.false_eq_true, if_false] at hys ⊢; rw [hys]; rfl
    | true => rw [hr] at hys; simp only [if_true] at hys ⊢; rw [hys]; rfl
  have hti : t.info = l.cell.outputQuant.quant.map (·.info) := hinfo t (List.mem_of_getLast? ht)
  have hps : packState l.returnQT l.cell.outputQuant t = ⟨[r.2], l.info⟩ := by
    unfold packState RnnLayer.info
    rw [htv, hti]
    split_ifs <;> rfl
  rw [pyIndex_last, ht]
  have hi2 : (if (l.returnQT && l.cell.outputQuant.isQuantEnabled) = true then
      Option.map (fun x => x.info) l.cell.outputQuant.quant else none) = l.info := rfl
  rw [hi2]
  cases catSeq l.batchFirst r.1 with
  | none => rfl
  | some v => simp only [Option.map_some, Option.bind_some, hps]

/-- One step of an LSTM layer on values. -/
def LstmCell.step (c : LstmCell K) (g : LstmGates K) (hc : Batch K × Batch K) (x : Batch K) : Batch K × Batch K :=
  ((c.forwardIter g x hc).1.value, (c.forwardIter g x hc).2.value)

/-- The metadata an LSTM layer attaches to its outputs and hidden states. -/
def LstmLayer.info (l : LstmLayer K) : Option (Meta K) :=
  if l.returnQT && l.cell.outputQuant.isQuantEnabled then l.cell.outputQuant.quant.map (·.info) else none

/-- The metadata an LSTM layer attaches to its cell states. -/
def LstmLayer.cellInfo (l : LstmLayer K) : Option (Meta K) :=
  if l.returnQT && l.cell.cellStateQuant.isQuantEnabled then l.cell.cellStateQuant.quant.map (·.info) else none

/-- The states an LSTM layer starts from. -/
def LstmLayer.start (l : LstmLayer K) (inp : Tensor3 K) (st ct : Option (Batch K)) : Batch K × Batch K :=
  let x := maybeQuantizeInput l.quantizeOutputOnly l.cell.outputQuant inp
  (maybeQuantizeState l.batchFirst l.hidden x l.cell.outputQuant st,
    maybeQuantizeState l.batchFirst l.hidden x l.cell.cellStateQuant ct)

/-- What an LSTM layer computes: the recurrence of its step. -/
theorem LstmLayer.forward_eq (l : LstmLayer K) (g : LstmGates K) (hg : l.gates = some g) (inp : Tensor3 K)
    (st ct : Option (Batch K)) :
    let xs := unbind l.batchFirst (maybeQuantizeInput l.quantizeOutputOnly l.cell.outputQuant inp)
    let r := directionRun l.reverse (l.cell.step g) Prod.fst (l.start inp st ct) xs
    xs ≠ [] →
    l.forward inp st ct =
      (catSeq l.batchFirst r.1).map fun v => (⟨v, l.info⟩, ⟨[r.2.1], l.info⟩, ⟨[r.2.2], l.cellInfo⟩) := by
  intro xs r hne
  unfold LstmLayer.forward LstmCell.forward
  simp only
  rw [hg, Option.bind_some, cellLoop_eq, Option.bind_some]
  obtain ⟨ys, hys⟩ : ∃ ys, ys = (if l.reverse = true then xs.reverse else xs) := ⟨_, rfl⟩
  have hyne : ys ≠ [] := by rw [hys]; cases l.reverse <;> simpa using hne
  have hys' : (if l.reverse = true then
      (unbind l.batchFirst (maybeQuantizeInput l.quantizeOutputOnly l.cell.outputQuant inp)).reverse
      else unbind l.batchFirst (maybeQuantizeInput l.quantizeOutputOnly l.cell.outputQuant inp)) = ys := hys.symm
  rw [hys']
  obtain ⟨outs, houts⟩ : ∃ outs, outs = scanOut (fun x s => l.cell.forwardIter g x s)
    (fun t => (t.1.value, t.2.value)) (l.start inp st ct) ys := ⟨_, rfl⟩
  have houts' : scanOut (fun x s => l.cell.forwardIter g x s) (fun t => (t.1.value, t.2.value))
    (maybeQuantizeState l.batchFirst l.hidden (maybeQuantizeInput l.quantizeOutputOnly l.cell.outputQuant inp)
      l.cell.outputQuant st,
     maybeQuantizeState l.batchFirst l.hidden (maybeQuantizeInput l.quantizeOutputOnly l.cell.outputQuant inp)
      l.cell.cellStateQuant ct) ys = outs := houts.symm
  rw [houts']
  have hone : outs ≠ [] := by
    intro h
    have := congrArg List.length houts
    rw [scanOut_length, h] at this
    exact hyne (List.length_eq_zero_iff.1 this.symm)
  have hinfo : ∀ o ∈ outs, o.1.info = l.cell.outputQuant.quant.map (·.info) ∧
      o.2.info = l.cell.cellStateQuant.quant.map (·.info) := by
    intro o ho
    rw [houts] at ho
    obtain ⟨x, -, s', rfl⟩ := scanOut_mem _ _ ho
    exact ⟨ActProxy.fast_info _ _, ActProxy.fast_info _ _⟩
  rw [packOutputs_eq (outs := outs.map (·.1)) (m := l.cell.outputQuant.quant.map (·.info)) (by simpa using hone) (by
    intro o ho
    rw [List.mem_map] at ho
    obtain ⟨o', ho', rfl⟩ := ho
    exact (hinfo o' ho').1)]
  have hval : (outs.map (·.1)).map (·.value) = (runStates (l.cell.step g) (l.start inp st ct) ys).map Prod.fst := by
    have := scanOut_next (fun x s => l.cell.forwardIter g x s) (fun t => (t.1.value, t.2.value)) (l.start inp st ct) ys
    rw [← houts] at this
    have e : runStates (l.cell.step g) (l.start inp st ct) ys =
      outs.map (fun t : QTuple K × QTuple K => (t.1.value, t.2.value)) := this.symm
    rw [e, List.map_map, List.map_map]
    rfl
  have hval' : ((if l.reverse = true then (outs.map (·.1)).reverse else outs.map (·.1)).map (·.value)) = r.1 := by
    have : r.1 = (directionRun l.reverse (l.cell.step g) Prod.fst (l.start inp st ct) xs).1 := rfl
    rw [this]
    unfold directionRun
    cases hr : l.reverse with
    | false =>
      rw [hr] at hys
      simp only [Bool.false_eq_true, if_false] at hys ⊢
      rw [hval, hys]
    | true =>
      rw [hr] at hys
      simp only [if_true] at hys ⊢
      rw [List.map_reverse, hval, hys, List.map_reverse]
  rw [hval']
  obtain ⟨t, ht, hte⟩ := scanOut_last (fun x s => l.cell.forwardIter g x s) (fun t => (t.1.value, t.2.value))
    (l.start inp st ct) ys hyne
  rw [← houts] at ht
  have htv : (t.1.value, t.2.value) = r.2 := by
    rw [hte]
    have : r.2 = (directionRun l.reverse (l.cell.step g) Prod.fst (l.start inp st ct) xs).2 := rfl
    rw [this]
    unfold directionRun
    cases hr : l.reverse with
    | false => rw [hr] at hys; simp only [Bool.false_eq_true, if_false] at hys ⊢; rw [hys]; rfl
    | true => rw [hr] at hys; simp only [if_true] at hys ⊢; rw [hys]; rfl
  have hti := hinfo t (List.mem_of_getLast? ht)
  have hps : packState l.returnQT l.cell.outputQuant t.1 = ⟨[r.2.1], l.info⟩ := by
    unfold packState LstmLayer.info
    rw [← htv, hti.1]
    split_ifs <;> rfl
  have hpc : packState l.returnQT l.cell.cellStateQuant t.2 = ⟨[r.2.2], l.cellInfo⟩ := by
    unfold packState LstmLayer.cellInfo
    rw [← htv, hti.2]
    split_ifs <;> rfl
  rw [pyIndex_last, ht, Option.bind_some, hps, hpc]
  have hi2 : (if (l.returnQT && l.cell.outputQuant.isQuantEnabled) = true then
      Option.map (fun x => x.info) l.cell.outputQuant.quant else none) = l.info := rfl
  rw [hi2]
  cases catSeq l.batchFirst r.1 <;> rfl

end Layer

/-! ## Without quantisers -/

section Float
variable {K : Type*} [Field K]

open Brevitas.Spec (vadd vmul rowDot matVec withBias FloatGate elmanStep lstmStep coupledLstmStep batchStep₂)

theorem vadd_comm (x y : List K) : vadd x y = vadd y x := by
  unfold vadd
  induction x generalizing y with
  | nil => cases y <;> rfl
  | cons a x ih => cases y with
    | nil => rfl
    | cons b y => simp [ih y, add_comm]

theorem vadd_assoc (x y z : List K) : vadd (vadd x y) z = vadd x (vadd y z) := by
  unfold vadd
  induction x generalizing y z with
  | nil => cases y <;> cases z <;> rfl
  | cons a x ih => cases y with
    | nil => cases z <;> rfl
    | cons b y => cases z with
      | nil => rfl
      | cons c z => simp [ih y z, add_assoc]

theorem vadd_zeros (x : List K) (n : ℕ) (h : x.length = n) : vadd (List.replicate n 0) x = x := by
  unfold vadd
  induction x generalizing n with
  | nil => subst h; rfl
  | cons a x ih =>
    subst h
    simpa [List.replicate_succ] using ih _ rfl

/-- A quantised gate that carries the parameters of a float one. -/
def Carries (q : QuantGate K) (g : FloatGate K) : Prop :=
  q.wIh = g.wIh ∧ q.wHh = g.wHh ∧ q.bias = g.bias.map fun b => vadd b.1 b.2

theorem acc_eq {q : QuantGate K} {g : FloatGate K} (h : Carries q g) (x s : Batch K) :
    q.acc x s = List.zipWith (fun hr xr => g.pre hr xr) s x := by
  obtain ⟨h1, h2, h3⟩ := h
  have hdot : ∀ a b : List K, (List.zipWith (· * ·) a b).sum = rowDot b a := by
    intro a b
    unfold rowDot
    rw [List.zipWith_comm_of_comm (fun x y => mul_comm x y)]
  unfold QuantGate.acc linear add
  rw [h1, h2, h3]
  induction x generalizing s with
  | nil => cases s <;> cases g.bias <;> rfl
  | cons a x ih => cases s with
    | nil => cases g.bias <;> rfl
    | cons b s =>
      have ih := ih s
      cases hb : g.bias with
      | none =>
        rw [hb] at ih
        simp only [addVec, List.map_cons, List.zipWith_cons_cons, Option.map_none] at ih ⊢
        rw [ih]
        congr 1
        unfold FloatGate.pre withBias matVec vadd
        rw [hb]
        simp [hdot]
      | some bb =>
        rw [hb] at ih
        simp only [addVec, List.map_cons, List.zipWith_cons_cons, Option.map_some] at ih ⊢
        rw [ih]
        congr 1
        unfold FloatGate.pre withBias
        rw [hb]
        simp only [Option.map_some, Option.elim_some]
        have e1 : (g.wIh.map fun wr => (List.zipWith (· * ·) a wr).sum) = matVec g.wIh a := by
          unfold matVec; simp [hdot]
        have e2 : (g.wHh.map fun wr => (List.zipWith (· * ·) b wr).sum) = matVec g.wHh b := by
          unfold matVec; simp [hdot]
        rw [e1, e2]
        change vadd (vadd (matVec g.wIh a) (matVec g.wHh b)) (vadd bb.1 bb.2) = _
        rw [vadd_assoc, vadd_assoc]
        congr 1
        rw [← vadd_assoc, vadd_comm _ bb.1, vadd_assoc]

/-- Without quantisers and loaded with float parameters, a step of the RNN cell is the Elman step of each sample. -/
theorem RnnCell.forwardIter_float (c : RnnCell K) (q : QuantGate K) (g : FloatGate K) (hq : Carries q g)
    (h1 : c.gateAccQuant.quant = none) (h2 : c.gateAccQuant.act = none) (h3 : c.outputQuant.quant = none)
    (h4 : c.outputQuant.act = none) (x s : Batch K) :
    (c.forwardIter q x s).value = batchStep (elmanStep c.actFn g) s x := by
  have e1 : ∀ v, c.gateAccQuant.fastFn v = v := fun v => by
    rw [ActProxy.fastFn_off _ h1, ActProxy.actFn_off _ h2]
  have e2 : ∀ v, c.outputQuant.fastFn v = v := fun v => by
    rw [ActProxy.fastFn_off _ h3, ActProxy.actFn_off _ h4]
  unfold RnnCell.forwardIter
  simp only
  rw [ActProxy.fast_value, ActProxy.fast_value, map_map_id e2, map_map_id e1, acc_eq hq]
  unfold batchStep elmanStep
  rw [List.map_zipWith]

/-- The proxies of an LSTM cell built without quantisers: only the activations of the gates. -/
structure LstmCell.IsFloat (c : LstmCell K) (sigmoid tanh : K → K) : Prop where
  noQuant : c.outputQuant.quant = none ∧ c.cellStateQuant.quant = none ∧ c.inputAccQuant.quant = none ∧
    c.forgetAccQuant.quant = none ∧ c.cellAccQuant.quant = none ∧ c.outputAccQuant.quant = none ∧
    c.inputSigmoidQuant.quant = none ∧ c.forgetSigmoidQuant.quant = none ∧ c.cellTanhQuant.quant = none ∧
    c.outputSigmoidQuant.quant = none ∧ c.hiddenStateTanhQuant.quant = none
  noAct : c.outputQuant.act = none ∧ c.cellStateQuant.act = none ∧ c.inputAccQuant.act = none ∧
    c.forgetAccQuant.act = none ∧ c.cellAccQuant.act = none ∧ c.outputAccQuant.act = none
  sigmoids : c.inputSigmoidQuant.act = some sigmoid ∧ c.forgetSigmoidQuant.act = some sigmoid ∧
    c.outputSigmoidQuant.act = some sigmoid
  tanhs : c.cellTanhQuant.act = some tanh ∧ c.hiddenStateTanhQuant.act = some tanh

theorem fast_plain {p : ActProxy K} (h1 : p.quant = none) (h2 : p.act = none) (x : Batch K) : (p.fast x).value = x := by
  rw [ActProxy.fast_value, map_map_id]
  intro v
  rw [ActProxy.fastFn_off _ h1, ActProxy.actFn_off _ h2]

theorem fast_act {p : ActProxy K} {f : K → K} (h1 : p.quant = none) (h2 : p.act = some f) (x : Batch K) :
    (p.fast x).value = x.map (·.map f) := by
  rw [ActProxy.fast_value]
  have : p.fastFn = f := by
    funext v
    rw [ActProxy.fastFn_off _ h1]
    unfold ActProxy.actFn
    rw [h2]
    rfl
  rw [this]

/-- Without quantisers and loaded with float parameters, a step of the LSTM cell is the LSTM step of each sample. -/
theorem LstmCell.step_float (c : LstmCell K) (sigmoid tanh : K → K) (hf : c.IsFloat sigmoid tanh) (hcifg : c.cifg = false)
    (q : LstmGates K) (gi gf gg go : FloatGate K) (hi : Carries q.i gi) (hfg : Carries q.f gf) (hc : Carries q.c gg)
    (ho : Carries q.o go) (s : Batch K × Batch K) (x : Batch K) :
    ((c.forwardIter q x s).1.value, (c.forwardIter q x s).2.value) =
      batchStep₂ (lstmStep sigmoid tanh gi gf gg go) s x := by
  obtain ⟨n1, n2, n3, n4, n5, n6, n7, n8, n9, n10, n11⟩ := hf.noQuant
  obtain ⟨a1, a2, a3, a4, a5, a6⟩ := hf.noAct
  obtain ⟨s1, s2, s3⟩ := hf.sigmoids
  obtain ⟨t1, t2⟩ := hf.tanhs
  unfold LstmCell.forwardIter LstmCell.inputGate LstmCell.forgetGate LstmCell.cellGate LstmCell.outGate
  rw [hcifg]
  simp only [Bool.false_eq_true, if_false]
  rw [fast_plain n1 a1, fast_plain n2 a2, fast_plain n2 a2, fast_plain n2 a2, fast_act n11 t2, fast_act n10 s3,
    fast_plain n6 a6, fast_act n7 s1, fast_plain n3 a3, fast_act n8 s2, fast_plain n4 a4, fast_act n9 t1,
    fast_plain n5 a5, acc_eq hi, acc_eq hfg, acc_eq hc, acc_eq ho]
  obtain ⟨h, cc⟩ := s
  unfold batchStep₂ mul add
  simp only
  induction h generalizing cc x with
  | nil => cases cc <;> cases x <;> rfl
  | cons a h ih => cases cc with
    | nil => cases x <;> rfl
    | cons b cc => cases x with
      | nil => rfl
      | cons xr x =>
        have ih := ih x cc
        rw [Prod.mk.injEq] at ih
        simp only [List.zipWith_cons_cons, List.map_cons, List.zip_cons_cons, List.unzip_cons]
        rw [← ih.1, ← ih.2]
        rfl

/-- The same with coupled gates. -/
theorem LstmCell.step_coupled (c : LstmCell K) (sigmoid tanh : K → K) (hf : c.IsFloat sigmoid tanh)
    (hcifg : c.cifg = true) (q : LstmGates K) (gi gg go : FloatGate K) (hi : Carries q.i gi) (hc : Carries q.c gg)
    (ho : Carries q.o go) (s : Batch K × Batch K) (x : Batch K) :
    ((c.forwardIter q x s).1.value, (c.forwardIter q x s).2.value) =
      batchStep₂ (coupledLstmStep sigmoid tanh gi gg go) s x := by
  obtain ⟨n1, n2, n3, n4, n5, n6, n7, n8, n9, n10, n11⟩ := hf.noQuant
  obtain ⟨a1, a2, a3, a4, a5, a6⟩ := hf.noAct
  obtain ⟨s1, s2, s3⟩ := hf.sigmoids
  obtain ⟨t1, t2⟩ := hf.tanhs
  unfold LstmCell.forwardIter LstmCell.forgetGate LstmCell.inputGate LstmCell.cellGate LstmCell.outGate
  rw [hcifg, n7]
  simp only [if_true]
  rw [fast_plain n1 a1, fast_plain n2 a2, fast_plain n2 a2, fast_plain n2 a2, fast_act n11 t2, fast_act n10 s3,
    fast_plain n6 a6, fast_act n7 s1, fast_plain n3 a3, fast_act n9 t1,
    fast_plain n5 a5, acc_eq hi, acc_eq hc, acc_eq ho]
  have e : ∀ r : List K, List.zipWith (fun a b : K => a - b) (r.map fun _ => 1) r = r.map fun v => 1 - v := by
    intro r
    induction r with
    | nil => rfl
    | cons a r ih => simp only [List.map_cons, List.zipWith_cons_cons, ih]
  obtain ⟨h, cc⟩ := s
  unfold batchStep₂ mul add sub
  simp only
  induction h generalizing cc x with
  | nil => cases cc <;> cases x <;> rfl
  | cons a h ih => cases cc with
    | nil => cases x <;> rfl
    | cons b cc => cases x with
      | nil => rfl
      | cons xr x =>
        have ih := ih x cc
        rw [Prod.mk.injEq] at ih
        simp only [List.zipWith_cons_cons, List.map_cons, List.zip_cons_cons, List.unzip_cons]
        rw [← ih.1, ← ih.2, e]
        rfl

theorem loadBias_eq (n : ℕ) (b : Option (List K × List K)) (h : ∀ x ∈ b, x.1.length = n ∧ x.2.length = n) :
    loadBias n b = b.map fun x => vadd x.1 x.2 := by
  unfold loadBias
  cases b with
  | none => rfl
  | some x =>
    obtain ⟨h1, h2⟩ := h x rfl
    simp only [Option.map_some]
    rw [List.take_of_length_le (by omega), List.take_of_length_le (by omega)]
    change some (vadd (vadd _ _) _) = _
    rw [vadd_zeros _ _ h1]

end Float

/-! ## Stacks -/

section Stack
variable {K : Type*}

open Brevitas.Spec (catFeatures catAllFeatures layerRun stackRun giveStates IsSequence)

/-- Number the directions of a layer and give each its state. -/
def enumDirs {D S : Type*} (f : ℕ → S) : ℕ → List D → List (D × S)
  | _, [] => []
  | d, x :: xs => (x, f d) :: enumDirs f (d + 1) xs

/-- Number the layers and the directions and give each direction its state. -/
def enumLayers {D S : Type*} (f : ℕ → ℕ → S) : ℕ → List (List D) → List (List (D × S))
  | _, [] => []
  | l, x :: xs => enumDirs (f l) 0 x :: enumLayers f (l + 1) xs

theorem enumDirs_const {D S : Type*} (s : S) (d : ℕ) (xs : List D) :
    enumDirs (fun _ => s) d xs = xs.map fun x => (x, s) := by
  induction xs generalizing d with
  | nil => rfl
  | cons x xs ih => simp [enumDirs, ih]

theorem enumLayers_const {D S : Type*} (s : S) (l : ℕ) (xs : List (List D)) :
    enumLayers (fun _ _ => s) l xs = xs.map (·.map fun x => (x, s)) := by
  induction xs generalizing l with
  | nil => rfl
  | cons x xs ih => simp [enumLayers, ih, enumDirs_const]

theorem catLastAll_eq (xs : List (Tensor3 K)) (h : xs ≠ []) :
    catLastAll xs = some (catAllFeatures xs) := by
  cases xs with
  | nil => exact absurd rfl h
  | cons o os => rfl

variable {L D S T R : Type*} (fwd : L → Tensor3 K → S → Option (Tensor3 K × R))
  (run : D → T → Tensor3 K → Tensor3 K × T) (rel : L → D → Prop) (ini : S → T) (wrap : T → R)

theorem directionsLoop_eq (states : ℕ → Option S) (g : ℕ → S) (l : ℕ) (inp : Tensor3 K) (dirs : List L) (ds : List D)
    (hrel : List.Forall₂ rel dirs ds) (d : ℕ)
    (hst : ∀ d', d ≤ d' → d' < d + dirs.length → states (2 * l + d') = some (g d'))
    (hf : ∀ x y, rel x y → ∀ s, fwd x inp s = some ((run y (ini s) inp).1, wrap (run y (ini s) inp).2)) :
    directionsLoop fwd states l inp d dirs =
      some ((enumDirs (fun d => ini (g d)) d ds).map fun ds =>
        ((run ds.1 ds.2 inp).1, wrap (run ds.1 ds.2 inp).2)) := by
  induction hrel generalizing d with
  | nil => rfl
  | @cons x y xs ys hxy _ ih =>
    rw [directionsLoop, hst d (le_refl _) (by simp), Option.bind_some, hf x y hxy, Option.bind_some,
      ih (d + 1) (fun d' h1 h2 => hst d' (by omega) (by simp only [List.length_cons]; omega))]
    rfl

theorem enumDirs_mem {f : ℕ → T} {ds : List D} {d : ℕ} {p : D × T} (h : p ∈ enumDirs f d ds) :
    p.1 ∈ ds ∧ ∃ i, p.2 = f i := by
  induction ds generalizing d with
  | nil => simp [enumDirs] at h
  | cons a ds ih =>
    rw [enumDirs, List.mem_cons] at h
    rcases h with rfl | h
    · exact ⟨by simp, d, rfl⟩
    · have := ih h
      exact ⟨by simp [this.1], this.2⟩

theorem forall₂_right {α β : Type*} {r : α → β → Prop} {xs : List α} {ys : List β} (h : List.Forall₂ r xs ys) {y : β}
    (hy : y ∈ ys) : ∃ x ∈ xs, r x y := by
  induction h with
  | nil => simp at hy
  | @cons a b as bs hab _ ih =>
    rw [List.mem_cons] at hy
    rcases hy with rfl | hy
    · exact ⟨a, by simp, hab⟩
    · obtain ⟨x, hx, hr⟩ := ih hy
      exact ⟨x, by simp [hx], hr⟩

/-- The loop over the layers computes the reference stack. -/
theorem layersLoop_eq (G : Tensor3 K → Prop) (states : ℕ → Option S) (st : ℕ → ℕ → S) (layers : List (List L))
    (dl : List (List D)) (hrel : List.Forall₂ (List.Forall₂ rel) layers dl) (l : ℕ)
    (inp : Tensor3 K) (hG : G inp) (hne : ∀ x ∈ dl, x ≠ [])
    (hst : ∀ (i : ℕ) (hi : i < layers.length) (d : ℕ), d < layers[i].length →
      states (2 * (l + i) + d) = some (st (l + i) d))
    (hf : ∀ x y, rel x y → ∀ inp, G inp → ∀ s,
      fwd x inp s = some ((run y (ini s) inp).1, wrap (run y (ini s) inp).2))
    (hG' : ∀ (ss : List (D × T)), (∀ p ∈ ss, (∃ x, rel x p.1) ∧ ∃ i j, p.2 = ini (st i j)) → ss ≠ [] →
      ∀ inp, G inp → G (layerRun run ss inp).1) :
    layersLoop fwd states l layers inp =
      some ((stackRun run (enumLayers (fun l d => ini (st l d)) l dl) inp).1,
        (stackRun run (enumLayers (fun l d => ini (st l d)) l dl) inp).2.map wrap) := by
  induction hrel generalizing l inp with
  | nil => rfl
  | @cons x y xs ys hxy _ ih =>
    have hy : y ≠ [] := hne y (by simp)
    rw [layersLoop, directionsLoop_eq fwd run rel ini wrap states (st l) l inp x y hxy 0 (by
      intro d' _ h2
      have := hst 0 (by simp) d' (by simpa using h2)
      simpa using this) (fun a b hab s => hf a b hab inp hG s), Option.bind_some]
    obtain ⟨ss, hss⟩ : ∃ ss, ss = enumDirs (fun d => ini (st l d)) 0 y := ⟨_, rfl⟩
    have hssne : ss ≠ [] := by
      cases y with
      | nil => exact absurd rfl hy
      | cons a as => rw [hss]; simp [enumDirs]
    rw [← hss]
    rw [catLastAll_eq _ (by simpa using hssne), Option.bind_some]
    have e1 : catAllFeatures ((ss.map fun ds => ((run ds.1 ds.2 inp).1, wrap (run ds.1 ds.2 inp).2)).map (·.1)) =
        (layerRun run ss inp).1 := by
      unfold layerRun
      simp only [List.map_map]
      rfl
    rw [e1]
    have hout : G (layerRun run ss inp).1 := by
      apply hG' ss _ hssne inp hG
      intro p hp
      rw [hss] at hp
      obtain ⟨h1, i, h2⟩ := enumDirs_mem hp
      obtain ⟨a, -, ha⟩ := forall₂_right hxy h1
      exact ⟨⟨a, ha⟩, l, i, h2⟩
    rw [ih (l + 1) _ hout (fun y hy => hne y (by simp [hy])) (by
        intro i hi d hd
        have := hst (i + 1) (by simpa using hi) d (by simpa using hd)
        rw [show l + (i + 1) = l + 1 + i by omega] at this
        exact this)]
    simp only [enumLayers, stackRun, Option.map_some]
    rw [← hss]
    congr 2
    rw [List.map_append]
    congr 1
    unfold layerRun
    simp only [List.map_map]
    rfl

theorem seq_cat {B : ℕ} {x y : Tensor3 K} (hx : IsSequence B x) (hy : IsSequence B y) (h : x.length = y.length) :
    IsSequence B (catFeatures x y) ∧ (catFeatures x y).length = x.length := by
  obtain ⟨hx0, hxB⟩ := hx
  obtain ⟨hy0, hyB⟩ := hy
  unfold catFeatures
  refine ⟨⟨?_, ?_⟩, by simp [h]⟩
  · intro h0
    have := congrArg List.length h0
    rw [List.length_zipWith, h, Nat.min_self] at this
    exact hy0 (List.length_eq_zero_iff.1 this)
  · intro b hb
    obtain ⟨i, hi, rfl⟩ := List.getElem_of_mem hb
    rw [List.length_zipWith] at hi
    rw [List.getElem_zipWith, List.length_zipWith, hxB _ (List.getElem_mem _), hyB _ (List.getElem_mem _), Nat.min_self]

theorem seq_foldl {B n : ℕ} (os : List (Tensor3 K)) (o : Tensor3 K) (ho : IsSequence B o ∧ o.length = n)
    (hos : ∀ x ∈ os, IsSequence B x ∧ x.length = n) : IsSequence B (os.foldl catFeatures o) ∧ (os.foldl catFeatures o).length = n := by
  induction os generalizing o with
  | nil => exact ho
  | cons a os ih =>
    have ha := hos a (by simp)
    have := seq_cat ho.1 ha.1 (by rw [ho.2, ha.2])
    exact ih _ ⟨this.1, by rw [this.2, ho.2]⟩ (fun x hx => hos x (by simp [hx]))

theorem seq_layerRun {B : ℕ} (ss : List (D × T)) (hne : ss ≠ []) (inp : Tensor3 K)
    (h : ∀ p ∈ ss, IsSequence B (run p.1 p.2 inp).1 ∧ (run p.1 p.2 inp).1.length = inp.length) :
    IsSequence B (layerRun run ss inp).1 ∧ (layerRun run ss inp).1.length = inp.length := by
  cases ss with
  | nil => exact absurd rfl hne
  | cons p ps =>
    unfold layerRun
    simp only [List.map_cons]
    apply seq_foldl
    · exact h p (by simp)
    · intro x hx
      rw [List.map_map, List.mem_map] at hx
      obtain ⟨q, hq, rfl⟩ := hx
      exact h q (by simp [hq])

/-- One direction keeps the shape of the sequence when its step keeps the batch size. -/
theorem seq_directionRun {S X : Type*} {B : ℕ} (reverse : Bool) (step : S → X → S) (out : S → Batch K) (s : S)
    (xs : List X) (hne : xs ≠ []) (P : S → Prop) (h0 : P s) (hs : ∀ s, P s → ∀ x ∈ xs, P (step s x))
    (hP : ∀ s, P s → (out s).length = B) :
    IsSequence B (directionRun reverse step out s xs).1 ∧ (directionRun reverse step out s xs).1.length = xs.length := by
  refine ⟨⟨?_, ?_⟩, directionRun_length _ _ _ _ _⟩
  · intro h
    have := congrArg List.length h
    rw [directionRun_length] at this
    exact hne (List.length_eq_zero_iff.1 this)
  · intro b hb
    unfold directionRun at hb
    cases reverse with
    | false =>
      simp only [Bool.false_eq_true, if_false, List.mem_map] at hb
      obtain ⟨t, ht, rfl⟩ := hb
      exact hP t ((runStates_inv step h0 hs).1 t ht)
    | true =>
      simp only [if_true, List.mem_map, List.mem_reverse] at hb
      obtain ⟨t, ht, rfl⟩ := hb
      exact hP t ((runStates_inv step h0 (fun s h x hx => hs s h x (by simpa using hx))).1 t ht)

/-- Giving the states of a flat list to the directions: layer `l` of a stack with two directions per layer gets
numbers `2 * l` and `2 * l + 1`. -/
theorem giveStates_two {D S : Type*} (dl : List (List D)) (h2 : ∀ x ∈ dl, x.length = 2) (ss : List S) (l : ℕ)
    (f : ℕ → ℕ → S) (hlen : ss.length = 2 * (l + dl.length))
    (hf : ∀ i d, d < 2 → l ≤ i → i < l + dl.length → ss[2 * i + d]? = some (f i d)) :
    giveStates dl (ss.drop (2 * l)) = enumLayers f l dl := by
  induction dl generalizing l with
  | nil => rfl
  | cons x dl ih =>
    have hx := h2 x (by simp)
    match x, hx with
    | [a, b], _ =>
      rw [giveStates, enumLayers]
      have e0 := hf l 0 (by omega) (le_refl _) (by simp)
      have e1 := hf l 1 (by omega) (le_refl _) (by simp)
      have hd : ss.drop (2 * l) = f l 0 :: f l 1 :: ss.drop (2 * (l + 1)) := by
        simp only [List.length_cons] at hlen
        rw [List.drop_eq_getElem_cons (by omega), List.drop_eq_getElem_cons (by omega)]
        rw [List.getElem?_eq_getElem (by omega)] at e0 e1
        injection e0 with e0
        injection e1 with e1
        simp only [Nat.add_zero] at e0
        rw [e0, e1]
        rfl
      rw [hd]
      simp only [List.length_cons, List.length_nil, List.take_succ_cons, List.take_zero, List.drop_succ_cons,
        List.drop_zero, List.zip_cons_cons, List.zip_nil_right, enumDirs]
      congr 1
      apply ih (fun y hy => h2 y (by simp [hy])) (l + 1)
      · simp only [List.length_cons] at hlen
        omega
      · intro i d hd hi hi'
        exact hf i d hd (by omega) (by simp only [List.length_cons]; omega)

theorem giveStates_one {D S : Type*} (x : List D) (ss : List S) (f : ℕ → ℕ → S)
    (hf : ∀ d, d < x.length → ss[d]? = some (f 0 d)) : giveStates [x] ss = enumLayers f 0 [x] := by
  have : ∀ (x : List D) (ss : List S) (k : ℕ), (∀ d, d < x.length → ss[d]? = some (f 0 (k + d))) →
      x.zip (ss.take x.length) = enumDirs (f 0) k x := by
    intro x
    induction x with
    | nil => intro ss k _; rfl
    | cons a x ih =>
      intro ss k h
      cases ss with
      | nil => have := h 0 (by simp); simp at this
      | cons s ss =>
        have h0 := h 0 (by simp)
        simp only [List.getElem?_cons_zero, Nat.add_zero, Option.some.injEq] at h0
        simp only [List.length_cons, List.take_succ_cons, List.zip_cons_cons, enumDirs]
        rw [ih ss (k + 1) (by
          intro d hd
          have := h (d + 1) (by simpa using hd)
          rw [List.getElem?_cons_succ] at this
          rw [this]
          congr 2
          omega), h0]
  simp only [giveStates, enumLayers]
  rw [this x ss 0 (by simpa using hf)]

end Stack

/-! ## Layers on sequences -/

section SeqFirst
variable {K : Type*} [Field K] [DecidableEq K]

open Brevitas.Spec (IsSequence)

/-- The state a layer starts from, for a batch of `B` samples. -/
def iniState (B hidden : ℕ) (q : ActProxy K) : Option (Batch K) → Batch K
  | none => List.replicate B (List.replicate hidden 0)
  | some s => s.map (·.map q.forward)

theorem quantizeInput_isSequence {B : ℕ} {qo : Bool} {io : ActProxy K} {inp : Tensor3 K} (h : IsSequence B inp) :
    IsSequence B (maybeQuantizeInput qo io inp) := by
  unfold maybeQuantizeInput
  cases qo with
  | true => simpa using h
  | false =>
    refine ⟨by simpa using h.1, ?_⟩
    intro b hb
    simp only [Bool.false_eq_true, if_false, List.mem_map] at hb
    obtain ⟨c, hc, rfl⟩ := hb
    rw [List.length_map]
    exact h.2 c hc

theorem quantizeInput_length {qo : Bool} {io : ActProxy K} {inp : Tensor3 K} :
    (maybeQuantizeInput qo io inp).length = inp.length := by
  unfold maybeQuantizeInput
  cases qo <;> simp

theorem head_length {B : ℕ} {x : Tensor3 K} (h : IsSequence B x) : (x.headD []).length = B := by
  cases x with
  | nil => exact absurd rfl h.1
  | cons a x => exact h.2 a (by simp)

theorem maybeQuantizeState_eq {B hidden : ℕ} {x : Tensor3 K} (h : IsSequence B x) (q : ActProxy K)
    (st : Option (Batch K)) : maybeQuantizeState false hidden x q st = iniState B hidden q st := by
  cases st with
  | none => simp only [maybeQuantizeState, iniState, Bool.false_eq_true, if_false, head_length h]
  | some s => rfl

/-- A sequence-first RNN layer on a sequence. -/
theorem RnnLayer.forward_seq (l : RnnLayer K) (hl : l.batchFirst = false) {B : ℕ} (inp : Tensor3 K)
    (h : IsSequence B inp) (st : Option (Batch K)) :
    l.forward inp st =
      (let r := directionRun l.reverse l.step id (iniState B l.hidden l.cell.outputQuant st)
        (maybeQuantizeInput l.quantizeOutputOnly l.cell.outputQuant inp)
       some (⟨r.1, l.info⟩, ⟨[r.2], l.info⟩)) := by
  have hs := quantizeInput_isSequence (qo := l.quantizeOutputOnly) (io := l.cell.outputQuant) h
  have := l.forward_eq inp st
  simp only [hl, unbind, Bool.false_eq_true, if_false] at this
  have h2 : l.start inp st = iniState B l.hidden l.cell.outputQuant st := by
    unfold RnnLayer.start
    rw [hl]
    exact maybeQuantizeState_eq hs _ _
  rw [this hs.1, h2, catSeq_false]
  · rfl
  · intro h0
    have := congrArg List.length h0
    rw [directionRun_length] at this
    exact hs.1 (List.length_eq_zero_iff.1 this)

/-- A sequence-first LSTM layer on a sequence. -/
theorem LstmLayer.forward_seq (l : LstmLayer K) (hl : l.batchFirst = false) (g : LstmGates K) (hg : l.gates = some g)
    {B : ℕ} (inp : Tensor3 K) (h : IsSequence B inp) (st ct : Option (Batch K)) :
    l.forward inp st ct =
      (let r := directionRun l.reverse (l.cell.step g) Prod.fst (iniState B l.hidden l.cell.outputQuant st,
          iniState B l.hidden l.cell.cellStateQuant ct)
        (maybeQuantizeInput l.quantizeOutputOnly l.cell.outputQuant inp)
       some (⟨r.1, l.info⟩, ⟨[r.2.1], l.info⟩, ⟨[r.2.2], l.cellInfo⟩)) := by
  have hs := quantizeInput_isSequence (qo := l.quantizeOutputOnly) (io := l.cell.outputQuant) h
  have := l.forward_eq g hg inp st ct
  simp only [hl, unbind, Bool.false_eq_true, if_false] at this
  have h2 : l.start inp st ct = (iniState B l.hidden l.cell.outputQuant st,
      iniState B l.hidden l.cell.cellStateQuant ct) := by
    unfold LstmLayer.start
    rw [hl]
    simp only
    rw [maybeQuantizeState_eq hs, maybeQuantizeState_eq hs]
  rw [this hs.1, h2, catSeq_false]
  · rfl
  · intro h0
    have := congrArg List.length h0
    rw [directionRun_length] at this
    exact hs.1 (List.length_eq_zero_iff.1 this)

theorem acc_length (g : QuantGate K) (x h : Batch K) : (g.acc x h).length = min x.length h.length := by
  unfold QuantGate.acc add linear addVec
  cases g.bias <;> simp

theorem RnnLayer.step_length (l : RnnLayer K) (h x : Batch K) : (l.step h x).length = min x.length h.length := by
  unfold RnnLayer.step RnnCell.forwardIter
  simp only
  rw [ActProxy.fast_value, ActProxy.fast_value]
  simp [acc_length]

theorem LstmCell.gates_length (c : LstmCell K) (g : LstmGates K) (x h : Batch K) :
    (c.inputGate g x h).length = min x.length h.length ∧ (c.forgetGate g x h).length = min x.length h.length ∧
    (c.cellGate g x h).length = min x.length h.length ∧ (c.outGate g x h).length = min x.length h.length := by
  have hi : (c.inputGate g x h).length = min x.length h.length := by
    unfold LstmCell.inputGate
    rw [ActProxy.fast_value, ActProxy.fast_value]
    simp [acc_length]
  refine ⟨hi, ?_, ?_, ?_⟩
  · unfold LstmCell.forgetGate
    cases c.cifg with
    | true =>
      simp only [if_true]
      cases c.inputSigmoidQuant.quant <;> simp [sub, hi]
    | false =>
      simp only [Bool.false_eq_true, if_false]
      rw [ActProxy.fast_value, ActProxy.fast_value]
      simp [acc_length]
  · unfold LstmCell.cellGate
    rw [ActProxy.fast_value, ActProxy.fast_value]
    simp [acc_length]
  · unfold LstmCell.outGate
    rw [ActProxy.fast_value, ActProxy.fast_value]
    simp [acc_length]

theorem LstmCell.step_length (c : LstmCell K) (g : LstmGates K) (hc : Batch K × Batch K) (x : Batch K) {B : ℕ}
    (hx : x.length = B) (hh : hc.1.length = B) (hcc : hc.2.length = B) :
    (c.step g hc x).1.length = B ∧ (c.step g hc x).2.length = B := by
  obtain ⟨h1, h2, h3, h4⟩ := c.gates_length g x hc.1
  rw [hx, hh, Nat.min_self] at h1 h2 h3 h4
  unfold LstmCell.step LstmCell.forwardIter
  simp only
  simp only [ActProxy.fast_value, List.length_map, mul, add, List.length_zipWith, h1, h2, h3, h4, hcc, Nat.min_self,
    and_self]

theorem iniState_length {B hidden : ℕ} {q : ActProxy K} {st : Option (Batch K)} (h : ∀ s ∈ st, s.length = B) :
    (iniState B hidden q st).length = B := by
  cases st with
  | none => simp [iniState]
  | some s => simp [iniState, h s rfl]

/-- One direction of an RNN layer, quantisers included, as a function of its initial state. -/
def RnnLayer.run (l : RnnLayer K) (s : Batch K) (x : Tensor3 K) : Tensor3 K × Batch K :=
  directionRun l.reverse l.step id s (maybeQuantizeInput l.quantizeOutputOnly l.cell.outputQuant x)

theorem RnnLayer.run_isSequence (l : RnnLayer K) {B : ℕ} (s : Batch K) (hs : s.length = B) (x : Tensor3 K)
    (hx : IsSequence B x) : IsSequence B (l.run s x).1 ∧ (l.run s x).1.length = x.length := by
  have hq := quantizeInput_isSequence (qo := l.quantizeOutputOnly) (io := l.cell.outputQuant) hx
  have := seq_directionRun (P := fun s => s.length = B) l.reverse l.step id s
    (maybeQuantizeInput l.quantizeOutputOnly l.cell.outputQuant x) hq.1 hs (by
      intro s hs b hb
      rw [RnnLayer.step_length, hs, hq.2 b hb, Nat.min_self]) (fun s h => h)
  rw [quantizeInput_length] at this
  exact this

theorem LstmLayer.gates_isSome (l : LstmLayer K) (hg : l.cell.cifg = true ∨ l.forgetGate.isSome) :
    ∃ g, l.gates = some g := by
  unfold LstmLayer.gates
  rcases hg with h | h
  · rw [h]; exact ⟨_, rfl⟩
  · obtain ⟨f, hf⟩ := Option.isSome_iff_exists.1 h
    rw [hf]
    cases l.cell.cifg <;> exact ⟨_, rfl⟩

/-- One direction of an LSTM layer, quantisers included, as a function of its initial states. -/
def LstmLayer.run (l : LstmLayer K) (g : LstmGates K) (s : Batch K × Batch K) (x : Tensor3 K) :
    Tensor3 K × (Batch K × Batch K) :=
  directionRun l.reverse (l.cell.step g) Prod.fst s (maybeQuantizeInput l.quantizeOutputOnly l.cell.outputQuant x)

theorem LstmLayer.run_isSequence (l : LstmLayer K) (g : LstmGates K) {B : ℕ} (s : Batch K × Batch K)
    (hs : s.1.length = B ∧ s.2.length = B) (x : Tensor3 K)
    (hx : IsSequence B x) : IsSequence B (l.run g s x).1 ∧ (l.run g s x).1.length = x.length := by
  have hq := quantizeInput_isSequence (qo := l.quantizeOutputOnly) (io := l.cell.outputQuant) hx
  have := seq_directionRun (P := fun s : Batch K × Batch K => s.1.length = B ∧ s.2.length = B) l.reverse
    (l.cell.step g) Prod.fst s
    (maybeQuantizeInput l.quantizeOutputOnly l.cell.outputQuant x) hq.1 hs (by
      intro s hs b hb
      exact l.cell.step_length g s b (hq.2 b hb) hs.1 hs.2) (fun s h => h.1)
  rw [quantizeInput_length] at this
  exact this

theorem quantizeInput_append (qo : Bool) (io : ActProxy K) (x y : Tensor3 K) :
    maybeQuantizeInput qo io (x ++ y) = maybeQuantizeInput qo io x ++ maybeQuantizeInput qo io y := by
  unfold maybeQuantizeInput
  cases qo <;> simp

theorem quantizeInput_reverse (qo : Bool) (io : ActProxy K) (x : Tensor3 K) :
    maybeQuantizeInput qo io x.reverse = (maybeQuantizeInput qo io x).reverse := by
  unfold maybeQuantizeInput
  cases qo <;> simp

end SeqFirst

/-! ## Generic facts about directions and stacks -/

section Generic

open Brevitas.Spec (IsSequence layerRun stackRun catAllFeatures)

theorem directionRun_append {S X Y : Type*} (step : S → X → S) (out : S → Y) (s : S) (xs ys : List X) :
    directionRun false step out s (xs ++ ys) =
      ((directionRun false step out s xs).1 ++ (directionRun false step out (directionRun false step out s xs).2 ys).1,
        (directionRun false step out (directionRun false step out s xs).2 ys).2) := by
  unfold directionRun
  simp only [Bool.false_eq_true, if_false]
  rw [runStates_append, finalState_append, List.map_append]

theorem directionRun_reverse {S X Y : Type*} (step : S → X → S) (out : S → Y) (s : S) (xs : List X) :
    directionRun true step out s xs =
      ((directionRun false step out s xs.reverse).1.reverse, (directionRun false step out s xs.reverse).2) := by
  unfold directionRun
  simp

theorem directionRun_final {S X : Type*} {Y : Type*} (reverse : Bool) (step : S → X → S) (out : S → Y) (s : S)
    (xs : List X) (h : xs ≠ []) :
    (if reverse then (directionRun reverse step out s xs).1.head? else (directionRun reverse step out s xs).1.getLast?) =
      some (out (directionRun reverse step out s xs).2) := by
  cases reverse with
  | false =>
    simp only [directionRun, Bool.false_eq_true, if_false, List.getLast?_map]
    rw [runStates_getLast _ _ _ h]
    rfl
  | true =>
    simp only [directionRun, if_true, List.head?_map, List.head?_reverse]
    rw [runStates_getLast _ _ _ (by simpa using h)]
    rfl

/-- A stack of layers with a single direction each, none of which looks ahead, does not look ahead. -/
theorem layersLoop_causal {L S R K : Type*} (fwd : L → Tensor3 K → S → Option (Tensor3 K × R)) (G : Tensor3 K → Prop)
    (s₀ : S) (layers : List L)
    (hf : ∀ d ∈ layers, ∀ x y, G x → G (x ++ y) → ∃ o r o' r', fwd d (x ++ y) s₀ = some (o, r) ∧
      fwd d x s₀ = some (o', r') ∧ G o ∧ G o' ∧ o'.length = x.length ∧ o' = o.take x.length)
    (l : ℕ) (x y : Tensor3 K) (hx : G x) (hxy : G (x ++ y)) :
    ∃ o s o' s', layersLoop fwd (fun _ => some s₀) l (layers.map fun d => [d]) (x ++ y) = some (o, s) ∧
      layersLoop fwd (fun _ => some s₀) l (layers.map fun d => [d]) x = some (o', s') ∧ o' = o.take x.length := by
  induction layers generalizing l x y with
  | nil => exact ⟨_, _, _, _, rfl, rfl, by simp⟩
  | cons d ds ih =>
    obtain ⟨o, r, o', r', h1, h2, g1, g2, hl, e⟩ := hf d (by simp) x y hx hxy
    obtain ⟨z, hz⟩ : ∃ z, o = o' ++ z := ⟨o.drop x.length, by rw [e, List.take_append_drop]⟩
    obtain ⟨p, s, p', s', k1, k2, k3⟩ := ih (fun q hq => hf q (by simp [hq])) (l + 1) o' z g2 (hz ▸ g1)
    refine ⟨p, r :: s, p', r' :: s', ?_, ?_, by rw [← hl]; exact k3⟩
    · simp only [List.map_cons, layersLoop, directionsLoop, h1, Option.bind_some, Option.map_some, List.map_nil,
        catLastAll]
      rw [hz]
      simp [k1]
    · simp only [List.map_cons, layersLoop, directionsLoop, h2, Option.bind_some, Option.map_some, List.map_nil,
        catLastAll]
      simp [k2]

theorem directionRun_take {S X Y : Type*} (step : S → X → S) (out : S → Y) (s : S) (xs ys : List X) :
    (directionRun false step out s xs).1 = (directionRun false step out s (xs ++ ys)).1.take xs.length := by
  rw [directionRun_append]
  simp only
  rw [List.take_append_of_le_length (by rw [directionRun_length]), List.take_of_length_le (by rw [directionRun_length])]

end Generic

end Brevitas.Rnn
