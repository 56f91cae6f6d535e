import Verif.Props.Rnn
import Verif.Lemmas.RnnSeq
import Verif.Props.IntQuant

/-!
# C67: recurrent layers over time and over the batch

For every choice of quantisers: feeding a sequence in pieces, not looking ahead, direction, layout and independence of
the samples of a batch.
-/

set_option linter.unusedSectionVars false

namespace Brevitas.Props

open Brevitas.Rnn Brevitas.Spec

variable {K : Type*} [Field K] [DecidableEq K]

/-! ## C67: time and batch -/

/-- Re-quantising what a quantiser has produced changes nothing. -/
def Idempotent (q : ActProxy K) : Prop := ∀ b : Batch K, (q.fast b).value.map (·.map q.forward) = (q.fast b).value

/-- A sequence may be fed in pieces: running a layer on the first piece, and then on the second one from the returned
state, gives the outputs and the final state of running it on the whole. -/
theorem C67_rnn_layer_pieces (l : RnnLayer K) (hbf : l.batchFirst = false) (hr : l.reverse = false)
    (hq : Idempotent l.cell.outputQuant) {B : ℕ} (xs ys : Tensor3 K) (hxs : IsSequence B xs) (hys : IsSequence B ys)
    (st : Option (Batch K)) :
    ∃ o₁ h₁ o₂ h₂ m, l.forward xs st = some (⟨o₁, m⟩, ⟨[h₁], m⟩) ∧ l.forward ys (some h₁) = some (⟨o₂, m⟩, ⟨[h₂], m⟩) ∧
      l.forward (xs ++ ys) st = some (⟨o₁ ++ o₂, m⟩, ⟨[h₂], m⟩) := by
  have hxy : IsSequence B (xs ++ ys) := ⟨by simp [hxs.1], fun b hb => by
    rw [List.mem_append] at hb
    exact hb.elim (hxs.2 b) (hys.2 b)⟩
  have h1 := l.forward_seq hbf xs hxs st
  have h3 := l.forward_seq hbf (xs ++ ys) hxy st
  simp only [hr] at h1 h3
  refine ⟨_, _, _, _, _, h1, l.forward_seq hbf ys hys _, ?_⟩
  rw [h3, quantizeInput_append, directionRun_append, hr]
  have hini : iniState B l.hidden l.cell.outputQuant
      (some (directionRun false l.step id (iniState B l.hidden l.cell.outputQuant st)
        (maybeQuantizeInput l.quantizeOutputOnly l.cell.outputQuant xs)).2) =
      (directionRun false l.step id (iniState B l.hidden l.cell.outputQuant st)
        (maybeQuantizeInput l.quantizeOutputOnly l.cell.outputQuant xs)).2 := by
    have hq' := quantizeInput_isSequence (qo := l.quantizeOutputOnly) (io := l.cell.outputQuant) hxs
    have hlast := runStates_getLast l.step (iniState B l.hidden l.cell.outputQuant st) _ hq'.1
    obtain ⟨x, -, s', e⟩ := runStates_mem l.step (List.mem_of_getLast? hlast)
    have e2 : (directionRun false l.step id (iniState B l.hidden l.cell.outputQuant st)
        (maybeQuantizeInput l.quantizeOutputOnly l.cell.outputQuant xs)).2 = l.step s' x := e
    rw [e2]
    exact hq _
  rw [hini]

/-- The same for an LSTM layer, with both states. -/
theorem C67_lstm_layer_pieces (l : LstmLayer K) (hbf : l.batchFirst = false) (hr : l.reverse = false)
    (hg : l.cell.cifg = true ∨ l.forgetGate.isSome)
    (hq : Idempotent l.cell.outputQuant) (hqc : Idempotent l.cell.cellStateQuant) {B : ℕ} (xs ys : Tensor3 K)
    (hxs : IsSequence B xs) (hys : IsSequence B ys) (st ct : Option (Batch K)) :
    ∃ o₁ h₁ c₁ o₂ h₂ c₂ m n, l.forward xs st ct = some (⟨o₁, m⟩, ⟨[h₁], m⟩, ⟨[c₁], n⟩) ∧
      l.forward ys (some h₁) (some c₁) = some (⟨o₂, m⟩, ⟨[h₂], m⟩, ⟨[c₂], n⟩) ∧
      l.forward (xs ++ ys) st ct = some (⟨o₁ ++ o₂, m⟩, ⟨[h₂], m⟩, ⟨[c₂], n⟩) := by
  obtain ⟨g, hg'⟩ := l.gates_isSome hg
  have hxy : IsSequence B (xs ++ ys) := ⟨by simp [hxs.1], fun b hb => by
    rw [List.mem_append] at hb
    exact hb.elim (hxs.2 b) (hys.2 b)⟩
  have h1 := l.forward_seq hbf g hg' xs hxs st ct
  have h3 := l.forward_seq hbf g hg' (xs ++ ys) hxy st ct
  simp only [hr] at h1 h3
  refine ⟨_, _, _, _, _, _, _, _, h1, l.forward_seq hbf g hg' ys hys _ _, ?_⟩
  rw [h3, quantizeInput_append, directionRun_append, hr]
  obtain ⟨s0, hs0⟩ : ∃ s0, s0 = (iniState B l.hidden l.cell.outputQuant st,
    iniState B l.hidden l.cell.cellStateQuant ct) := ⟨_, rfl⟩
  rw [← hs0]
  obtain ⟨s1, hs1⟩ : ∃ s1, s1 = (directionRun false (l.cell.step g) Prod.fst s0
        (maybeQuantizeInput l.quantizeOutputOnly l.cell.outputQuant xs)).2 := ⟨_, rfl⟩
  rw [← hs1]
  have hini : iniState B l.hidden l.cell.outputQuant (some s1.1) = s1.1 ∧
      iniState B l.hidden l.cell.cellStateQuant (some s1.2) = s1.2 := by
    have hq' := quantizeInput_isSequence (qo := l.quantizeOutputOnly) (io := l.cell.outputQuant) hxs
    have hlast := runStates_getLast (l.cell.step g) s0 _ hq'.1
    obtain ⟨x, -, s', e⟩ := runStates_mem (l.cell.step g) (List.mem_of_getLast? hlast)
    have e2 : s1 = l.cell.step g s' x := by rw [hs1]; exact e
    rw [e2]
    exact ⟨hq _, hqc _⟩
  rw [hini.1, hini.2]

/-- A right-to-left layer is a left-to-right layer on the reversed sequence, with its outputs reversed. -/
theorem C67_rnn_reverse (l : RnnLayer K) (hbf : l.batchFirst = false) {B : ℕ} (xs : Tensor3 K) (hxs : IsSequence B xs)
    (st : Option (Batch K)) :
    ({ l with reverse := true } : RnnLayer K).forward xs st =
      (({ l with reverse := false } : RnnLayer K).forward xs.reverse st).map fun r =>
        (⟨r.1.value.reverse, r.1.info⟩, r.2) := by
  have hrev : IsSequence B xs.reverse := ⟨by simpa using hxs.1, fun b hb => hxs.2 b (by simpa using hb)⟩
  rw [({ l with reverse := true } : RnnLayer K).forward_seq hbf xs hxs,
    ({ l with reverse := false } : RnnLayer K).forward_seq hbf _ hrev, quantizeInput_reverse]
  simp only [directionRun_reverse]
  rfl

theorem C67_lstm_reverse (l : LstmLayer K) (hbf : l.batchFirst = false) {B : ℕ} (xs : Tensor3 K)
    (hxs : IsSequence B xs) (st ct : Option (Batch K)) :
    ({ l with reverse := true } : LstmLayer K).forward xs st ct =
      (({ l with reverse := false } : LstmLayer K).forward xs.reverse st ct).map fun r =>
        (⟨r.1.value.reverse, r.1.info⟩, r.2) := by
  have hrev : IsSequence B xs.reverse := ⟨by simpa using hxs.1, fun b hb => hxs.2 b (by simpa using hb)⟩
  cases hg : l.gates with
  | none =>
    unfold LstmLayer.forward
    have h1 : ({ l with reverse := true } : LstmLayer K).gates = none := hg
    have h2 : ({ l with reverse := false } : LstmLayer K).gates = none := hg
    simp only [h1, h2]
    rfl
  | some g =>
    rw [({ l with reverse := true } : LstmLayer K).forward_seq hbf g hg xs hxs,
      ({ l with reverse := false } : LstmLayer K).forward_seq hbf g hg _ hrev, quantizeInput_reverse]
    simp only [directionRun_reverse]
    rfl

/-- The returned state is the output of the last step the layer made: the last output of a left-to-right layer, the
first one of a right-to-left layer. -/
theorem C67_final_state_is_output (l : RnnLayer K) (hbf : l.batchFirst = false) {B : ℕ} (xs : Tensor3 K)
    (hxs : IsSequence B xs) (st : Option (Batch K)) :
    ∃ o s, l.forward xs st = some (o, s) ∧ o.value.length = xs.length ∧
      (if l.reverse then o.value.head? else o.value.getLast?).toList = s.value := by
  refine ⟨_, _, l.forward_seq hbf xs hxs st, ?_, ?_⟩
  · simp only
    rw [directionRun_length, quantizeInput_length]
  · simp only
    rw [directionRun_final _ _ _ _ _ (quantizeInput_isSequence hxs).1]
    rfl

/-- A stack of left-to-right layers, quantised or not, does not look ahead: what it outputs for a prefix of a sequence is
a prefix of what it outputs for the sequence. -/
theorem C67_causal (layers : List (RnnLayer K)) (hne : layers ≠ [])
    (hl : ∀ l ∈ layers, l.batchFirst = false ∧ l.reverse = false) {B : ℕ} (xs ys : Tensor3 K) (hxs : IsSequence B xs)
    (hys : ∀ b ∈ ys, b.length = B) :
    ∃ o s o' s', rnnForward (layers.map fun l => [l]) (xs ++ ys) none = some (o, s) ∧
      rnnForward (layers.map fun l => [l]) xs none = some (o', s') ∧ o' = o.take xs.length := by
  have hxy : IsSequence B (xs ++ ys) := ⟨by simp [hxs.1], fun b hb => by
    rw [List.mem_append] at hb
    exact hb.elim (hxs.2 b) (hys b)⟩
  have hne' : ¬ (layers.map fun l => [l]).isEmpty = true := by simpa using hne
  obtain ⟨o, s, o', s', h1, h2, e⟩ := layersLoop_causal
    (fun l x s => (RnnLayer.forward l x s).map fun r => (r.1.value, r.2.value)) (IsSequence B) none layers (by
      intro l hm x y hx hxy
      have hq := quantizeInput_isSequence (qo := l.quantizeOutputOnly) (io := l.cell.outputQuant) hx
      obtain ⟨hbf, hr⟩ := hl l hm
      have g1 := l.run_isSequence (iniState B l.hidden l.cell.outputQuant none)
        (iniState_length (by simp)) _ hxy
      have g2 := l.run_isSequence (iniState B l.hidden l.cell.outputQuant none)
        (iniState_length (by simp)) _ hx
      refine ⟨_, _, _, _, by rw [l.forward_seq hbf _ hxy none]; rfl, by rw [l.forward_seq hbf _ hx none]; rfl,
        g1.1, g2.1, g2.2, ?_⟩
      show (l.run _ _).1 = List.take x.length (l.run _ _).1
      unfold RnnLayer.run
      rw [hr, quantizeInput_append, directionRun_take _ _ _ _ (maybeQuantizeInput l.quantizeOutputOnly l.cell.outputQuant y),
        quantizeInput_length]) 0 xs ys hxs hxy
  refine ⟨o, s.flatten, o', s'.flatten, ?_, ?_, e⟩
  · unfold rnnForward
    rw [if_neg hne']
    have : (stateAt none : ℕ → Option (Option (Batch K))) = fun _ => some none := rfl
    rw [this, h1]
    rfl
  · unfold rnnForward
    rw [if_neg hne']
    have : (stateAt none : ℕ → Option (Option (Batch K))) = fun _ => some none := rfl
    rw [this, h2]
    rfl

/-- The same for a stack of LSTM layers. -/
theorem C67_lstm_causal (layers : List (LstmLayer K)) (hne : layers ≠ [])
    (hl : ∀ l ∈ layers, l.batchFirst = false ∧ l.reverse = false ∧ (l.cell.cifg = true ∨ l.forgetGate.isSome)) {B : ℕ}
    (xs ys : Tensor3 K) (hxs : IsSequence B xs) (hys : ∀ b ∈ ys, b.length = B) :
    ∃ o s o' s', lstmForward (layers.map fun l => [l]) (xs ++ ys) none none = some (o, s) ∧
      lstmForward (layers.map fun l => [l]) xs none none = some (o', s') ∧ o' = o.take xs.length := by
  have hxy : IsSequence B (xs ++ ys) := ⟨by simp [hxs.1], fun b hb => by
    rw [List.mem_append] at hb
    exact hb.elim (hxs.2 b) (hys b)⟩
  have hne' : ¬ (layers.map fun l => [l]).isEmpty = true := by simpa using hne
  obtain ⟨o, s, o', s', h1, h2, e⟩ := layersLoop_causal
    (fun l x (s : Option (Batch K) × Option (Batch K)) =>
        (LstmLayer.forward l x s.1 s.2).map fun r => (r.1.value, (r.2.1.value, r.2.2.value)))
    (IsSequence B) (none, none) layers (by
      intro l hm x y hx hxy
      obtain ⟨hbf, hr, hg⟩ := hl l hm
      obtain ⟨g, hg'⟩ := l.gates_isSome hg
      have hi : (iniState B l.hidden l.cell.outputQuant none).length = B := iniState_length (by simp)
      have hi' : (iniState B l.hidden l.cell.cellStateQuant none).length = B := iniState_length (by simp)
      have g1 := l.run_isSequence g (iniState B l.hidden l.cell.outputQuant none,
        iniState B l.hidden l.cell.cellStateQuant none) ⟨hi, hi'⟩ _ hxy
      have g2 := l.run_isSequence g (iniState B l.hidden l.cell.outputQuant none,
        iniState B l.hidden l.cell.cellStateQuant none) ⟨hi, hi'⟩ _ hx
      refine ⟨_, _, _, _, by rw [l.forward_seq hbf g hg' _ hxy none none]; rfl,
        by rw [l.forward_seq hbf g hg' _ hx none none]; rfl, g1.1, g2.1, g2.2, ?_⟩
      show (l.run g _ _).1 = List.take x.length (l.run g _ _).1
      unfold LstmLayer.run
      rw [hr, quantizeInput_append, directionRun_take _ _ _ _ (maybeQuantizeInput l.quantizeOutputOnly l.cell.outputQuant y),
        quantizeInput_length]) 0 xs ys hxs hxy
  refine ⟨o, ((s.map (·.1)).flatten, (s.map (·.2)).flatten), o', ((s'.map (·.1)).flatten, (s'.map (·.2)).flatten), ?_, ?_, e⟩
  · unfold lstmForward
    rw [if_neg hne']
    have : (fun i => (stateAt none i).bind fun h => (stateAt none i).map fun c => (h, c) :
      ℕ → Option (Option (Batch K) × Option (Batch K))) = fun _ => some (none, none) := rfl
    rw [this, h1]
    rfl
  · unfold lstmForward
    rw [if_neg hne']
    have : (fun i => (stateAt none i).bind fun h => (stateAt none i).map fun c => (h, c) :
      ℕ → Option (Option (Batch K) × Option (Batch K))) = fun _ => some (none, none) := rfl
    rw [this, h2]
    rfl

/-- Every state of a state tensor is a batch of `B` samples. -/
def StatesFor (B : ℕ) (hx : Option (Tensor3 K)) : Prop := ∀ h ∈ hx, ∀ s ∈ h, s.length = B

theorem stateAt_length {B : ℕ} {hx : Option (Tensor3 K)} (h : StatesFor B hx) (i : ℕ) :
    ∀ s ∈ stateAt hx i, ∀ b ∈ s, b.length = B := by
  intro s hs b hb
  cases hx with
  | none =>
    simp only [stateAt, Option.mem_def, Option.some.injEq] at hs
    subst hs
    simp at hb
  | some t =>
    simp only [stateAt, pyIndex_nat, Option.mem_def, Option.map_eq_some_iff] at hs
    obtain ⟨a, ha, rfl⟩ := hs
    rw [Option.mem_def, Option.some.injEq] at hb
    subst hb
    exact h t rfl _ (List.mem_of_getElem? ha)

theorem stateAt_pick (hx : Option (Tensor3 K)) (b i : ℕ) :
    stateAt (hx.map (pickSeq b)) i = (stateAt hx i).map (Option.map (pick b)) := by
  cases hx with
  | none => rfl
  | some t =>
    simp only [stateAt, Option.map_some, pyIndex_nat, pickSeq, List.getElem?_map]
    cases t[i]? <;> rfl

/-- With `batch_first=True` a stack takes and returns sequences with the two first dimensions exchanged and does nothing
else: same outputs, same states, and it raises in the same cases. -/
theorem C67_rnn_batch_first (layers : List (List (RnnLayer K))) {B : ℕ} (hB : 0 < B) (inp : Tensor3 K)
    (h : IsSequence B inp) (hx : Option (Tensor3 K)) (hs : StatesFor B hx) :
    rnnForward (layers.map (·.map fun l => { l with batchFirst := true })) (swapDims B inp) hx =
      (rnnForward (layers.map (·.map fun l => { l with batchFirst := false })) inp hx).map fun r =>
        (swapDims B r.1, r.2) := by
  unfold rnnForward
  rw [layersLoop_map_layers, layersLoop_map_layers]
  cases layers with
  | nil => rfl
  | cons a as =>
    rw [if_neg (by simp), if_neg (by simp)]
    rw [layersLoop_conj (fwd := fun l x s =>
        (({ l with batchFirst := false } : RnnLayer K).forward x s).map fun r => (r.1.value, r.2.value))
      (G := fun x => IsSequence B x ∧ x.length = inp.length) (P := fun s : Option (Batch K) => ∀ b ∈ s, b.length = B)
      (φ := swapDims B) (σ := id) (ρ := id) (states := stateAt hx) (states' := stateAt hx)
      (hP := stateAt_length hs) (hs := fun i => by simp)]
    · rw [Option.map_map, Option.map_map]
      congr 1
      funext r
      simp
    · intro x y hx hy
      have e : catLast x y = catFeatures x y := rfl
      have := seq_cat hx.1 hy.1 (by rw [hx.2, hy.2])
      exact ⟨⟨by rw [e]; exact this.1, by rw [e, this.2, hx.2]⟩, catLast_swap hx.1 hy.1 (by rw [hx.2, hy.2])⟩
    · intro ds _ l _ x hx' s hs'
      refine ⟨?_, ?_⟩
      · simp only [id]
        rw [l.forward_swap hB x hx'.1 s hs', Option.map_map, Option.map_map]
        rfl
      · intro r hr
        rw [({ l with batchFirst := false } : RnnLayer K).forward_seq rfl x hx'.1] at hr
        simp only [Option.map_some, Option.mem_def, Option.some.injEq] at hr
        rw [← hr]
        have := ({ l with batchFirst := false } : RnnLayer K).run_isSequence _ (iniState_length (hidden := l.hidden)
          (q := l.cell.outputQuant) hs') x hx'.1
        exact ⟨this.1, this.2.trans hx'.2⟩
    · exact ⟨h, rfl⟩

/-- The same for stacks of LSTM layers. -/
theorem C67_lstm_batch_first (layers : List (List (LstmLayer K))) {B : ℕ} (hB : 0 < B) (inp : Tensor3 K)
    (h : IsSequence B inp) (hx cx : Option (Tensor3 K)) (hs : StatesFor B hx) (hc : StatesFor B cx) :
    lstmForward (layers.map (·.map fun l => { l with batchFirst := true })) (swapDims B inp) hx cx =
      (lstmForward (layers.map (·.map fun l => { l with batchFirst := false })) inp hx cx).map fun r =>
        (swapDims B r.1, r.2) := by
  unfold lstmForward
  rw [layersLoop_map_layers, layersLoop_map_layers]
  cases layers with
  | nil => rfl
  | cons a as =>
    rw [if_neg (by simp), if_neg (by simp)]
    rw [layersLoop_conj (fwd := fun l x (s : Option (Batch K) × Option (Batch K)) =>
        (({ l with batchFirst := false } : LstmLayer K).forward x s.1 s.2).map fun r =>
          (r.1.value, (r.2.1.value, r.2.2.value)))
      (G := fun x => IsSequence B x ∧ x.length = inp.length)
      (P := fun s : Option (Batch K) × Option (Batch K) => (∀ b ∈ s.1, b.length = B) ∧ ∀ b ∈ s.2, b.length = B)
      (φ := swapDims B) (σ := id) (ρ := id)
      (states := fun i => (stateAt hx i).bind fun h => (stateAt cx i).map fun c => (h, c))
      (states' := fun i => (stateAt hx i).bind fun h => (stateAt cx i).map fun c => (h, c))
      (hP := by
        intro i s hs'
        simp only [Option.mem_def, Option.bind_eq_some_iff, Option.map_eq_some_iff] at hs'
        obtain ⟨a, ha, c, hc', rfl⟩ := hs'
        exact ⟨stateAt_length hs i a ha, stateAt_length hc i c hc'⟩) (hs := fun i => by simp)]
    · rw [Option.map_map, Option.map_map]
      congr 1
      funext r
      simp
    · intro x y hx hy
      have e : catLast x y = catFeatures x y := rfl
      have := seq_cat hx.1 hy.1 (by rw [hx.2, hy.2])
      exact ⟨⟨by rw [e]; exact this.1, by rw [e, this.2, hx.2]⟩, catLast_swap hx.1 hy.1 (by rw [hx.2, hy.2])⟩
    · intro ds _ l _ x hx' s hs'
      refine ⟨?_, ?_⟩
      · simp only [id]
        rw [l.forward_swap hB x hx'.1 s.1 s.2 hs'.1 hs'.2, Option.map_map, Option.map_map]
        rfl
      · intro r hr
        cases hg : l.gates with
        | none =>
          unfold LstmLayer.forward at hr
          have g1 : ({ l with batchFirst := false } : LstmLayer K).gates = none := hg
          simp only [g1] at hr
          simp at hr
        | some g =>
          rw [({ l with batchFirst := false } : LstmLayer K).forward_seq rfl g hg x hx'.1] at hr
          simp only [Option.map_some, Option.mem_def, Option.some.injEq] at hr
          rw [← hr]
          have := ({ l with batchFirst := false } : LstmLayer K).run_isSequence g
            (iniState B l.hidden l.cell.outputQuant s.1, iniState B l.hidden l.cell.cellStateQuant s.2)
            ⟨iniState_length hs'.1, iniState_length hs'.2⟩ x hx'.1
          exact ⟨this.1, this.2.trans hx'.2⟩
    · exact ⟨h, rfl⟩

/-- The samples of a batch do not influence each other: what a stack computes for a sample is what it computes for the
batch that contains this sample only (with the state of this sample). -/
theorem C67_rnn_samples_independent (layers : List (List (RnnLayer K)))
    (hl : ∀ ds ∈ layers, ∀ l ∈ ds, l.batchFirst = false) {B b : ℕ} (hb : b < B) (inp : Tensor3 K)
    (h : IsSequence B inp) (hx : Option (Tensor3 K)) (hs : StatesFor B hx) :
    rnnForward layers (pickSeq b inp) (hx.map (pickSeq b)) =
      (rnnForward layers inp hx).map fun r => (pickSeq b r.1, pickSeq b r.2) := by
  unfold rnnForward
  cases layers with
  | nil => rfl
  | cons a as =>
    rw [if_neg (by simp), if_neg (by simp)]
    rw [layersLoop_conj (fwd := fun l x s => (RnnLayer.forward l x s).map fun r => (r.1.value, r.2.value))
      (G := IsSequence B) (P := fun s : Option (Batch K) => ∀ b ∈ s, b.length = B)
      (φ := pickSeq b) (σ := Option.map (pick b)) (ρ := pickSeq b) (states := stateAt hx)
      (hP := stateAt_length hs) (hs := fun i => stateAt_pick hx b i)]
    · rw [Option.map_map, Option.map_map]
      congr 1
      funext r
      simp only [Function.comp, pickSeq, List.map_flatten]
      rfl
    · intro x y hx hy
      exact ⟨catLast_isSequence hx hy, catLast_pick hb hx hy⟩
    · intro ds hds l hld x hx' s hs'
      have hbf := hl ds hds l hld
      refine ⟨?_, ?_⟩
      · rw [l.forward_pick hbf hb x hx' s hs', Option.map_map, Option.map_map]
        rfl
      · intro r hr
        rw [l.forward_seq hbf x hx'] at hr
        simp only [Option.map_some, Option.mem_def, Option.some.injEq] at hr
        rw [← hr]
        exact (l.run_isSequence _ (iniState_length (hidden := l.hidden) (q := l.cell.outputQuant) hs') x hx').1
    · exact h

/-- The same for stacks of LSTM layers. -/
theorem C67_lstm_samples_independent (layers : List (List (LstmLayer K)))
    (hl : ∀ ds ∈ layers, ∀ l ∈ ds, l.batchFirst = false) {B b : ℕ} (hb : b < B) (inp : Tensor3 K)
    (h : IsSequence B inp) (hx cx : Option (Tensor3 K)) (hs : StatesFor B hx) (hc : StatesFor B cx) :
    lstmForward layers (pickSeq b inp) (hx.map (pickSeq b)) (cx.map (pickSeq b)) =
      (lstmForward layers inp hx cx).map fun r => (pickSeq b r.1, pickSeq b r.2.1, pickSeq b r.2.2) := by
  unfold lstmForward
  cases layers with
  | nil => rfl
  | cons a as =>
    rw [if_neg (by simp), if_neg (by simp)]
    rw [layersLoop_conj (fwd := fun l x (s : Option (Batch K) × Option (Batch K)) =>
        (LstmLayer.forward l x s.1 s.2).map fun r => (r.1.value, (r.2.1.value, r.2.2.value)))
      (G := IsSequence B)
      (P := fun s : Option (Batch K) × Option (Batch K) => (∀ b ∈ s.1, b.length = B) ∧ ∀ b ∈ s.2, b.length = B)
      (φ := pickSeq b) (σ := fun s => (s.1.map (pick b), s.2.map (pick b)))
      (ρ := fun r => (pickSeq b r.1, pickSeq b r.2))
      (states := fun i => (stateAt hx i).bind fun h => (stateAt cx i).map fun c => (h, c))
      (hP := by
        intro i s hs'
        simp only [Option.mem_def, Option.bind_eq_some_iff, Option.map_eq_some_iff] at hs'
        obtain ⟨a, ha, c, hc', rfl⟩ := hs'
        exact ⟨stateAt_length hs i a ha, stateAt_length hc i c hc'⟩) (hs := fun i => by
          rw [stateAt_pick, stateAt_pick]
          cases stateAt hx i with
          | none => rfl
          | some a => cases stateAt cx i <;> rfl)]
    · rw [Option.map_map, Option.map_map]
      congr 1
      funext r
      simp only [Function.comp, pickSeq, List.map_flatten, List.map_map]
      rfl
    · intro x y hx hy
      exact ⟨catLast_isSequence hx hy, catLast_pick hb hx hy⟩
    · intro ds hds l hld x hx' s hs'
      have hbf := hl ds hds l hld
      refine ⟨?_, ?_⟩
      · rw [l.forward_pick hbf hb x hx' s.1 s.2 hs'.1 hs'.2, Option.map_map, Option.map_map]
        rfl
      · intro r hr
        cases hg : l.gates with
        | none =>
          unfold LstmLayer.forward at hr
          simp only [hg] at hr
          simp at hr
        | some g =>
          rw [l.forward_seq hbf g hg x hx'] at hr
          simp only [Option.map_some, Option.mem_def, Option.some.injEq] at hr
          rw [← hr]
          exact (l.run_isSequence g
            (iniState B l.hidden l.cell.outputQuant s.1, iniState B l.hidden l.cell.cellStateQuant s.2)
            ⟨iniState_length hs'.1, iniState_length hs'.2⟩ x hx').1
    · exact h

/-- Feeding a sequence in pieces to a stack of one left-to-right layer, handing over the returned states.  The full
statement is about stacks of any number of layers; with two or more layers and one direction it is false, because the stack
does not accept the states it returns (`C66_given_states_raise`). -/
theorem C67_rnn_pieces_partial (l : RnnLayer K) (hbf : l.batchFirst = false) (hr : l.reverse = false)
    (hq : Idempotent l.cell.outputQuant) {B : ℕ} (xs ys : Tensor3 K) (hxs : IsSequence B xs) (hys : IsSequence B ys)
    (hx : Option (Tensor3 K)) (hlen : ∀ h ∈ hx, h.length = 1) :
    ∃ o₁ h₁ o₂ h₂, rnnForward [[l]] xs hx = some (o₁, h₁) ∧ rnnForward [[l]] ys (some h₁) = some (o₂, h₂) ∧
      rnnForward [[l]] (xs ++ ys) hx = some (o₁ ++ o₂, h₂) := by
  obtain ⟨st, hst⟩ : ∃ st, stateAt hx 0 = some st := by
    cases hx with
    | none => exact ⟨_, rfl⟩
    | some h =>
      obtain ⟨a, rfl⟩ := List.length_eq_one_iff.1 (hlen h rfl)
      exact ⟨some a, rfl⟩
  obtain ⟨o₁, h₁, o₂, h₂, m, e1, e2, e3⟩ := C67_rnn_layer_pieces l hbf hr hq xs ys hxs hys st
  have key : ∀ (x : Tensor3 K) (hx : Option (Tensor3 K)) st o h, stateAt hx 0 = some st →
      l.forward x st = some (⟨o, m⟩, ⟨[h], m⟩) → rnnForward [[l]] x hx = some (o, [h]) := by
    intro x hx st o h h1 h2
    simp [rnnForward, layersLoop, directionsLoop, h1, h2, catLastAll]
  exact ⟨o₁, [h₁], o₂, [h₂], key _ _ _ _ _ hst e1, key _ _ _ _ _ rfl e2, key _ _ _ _ _ hst e3⟩

/-- The same for an LSTM. -/
theorem C67_lstm_pieces_partial (l : LstmLayer K) (hbf : l.batchFirst = false) (hr : l.reverse = false)
    (hg : l.cell.cifg = true ∨ l.forgetGate.isSome)
    (hq : Idempotent l.cell.outputQuant) (hqc : Idempotent l.cell.cellStateQuant) {B : ℕ} (xs ys : Tensor3 K)
    (hxs : IsSequence B xs) (hys : IsSequence B ys) (hx cx : Option (Tensor3 K)) (hlen : ∀ h ∈ hx, h.length = 1)
    (clen : ∀ c ∈ cx, c.length = 1) :
    ∃ o₁ h₁ c₁ o₂ h₂ c₂, lstmForward [[l]] xs hx cx = some (o₁, h₁, c₁) ∧
      lstmForward [[l]] ys (some h₁) (some c₁) = some (o₂, h₂, c₂) ∧
      lstmForward [[l]] (xs ++ ys) hx cx = some (o₁ ++ o₂, h₂, c₂) := by
  have hsome : ∀ hx : Option (Tensor3 K), (∀ h ∈ hx, h.length = 1) → ∃ st, stateAt hx 0 = some st := by
    intro hx hlen
    cases hx with
    | none => exact ⟨_, rfl⟩
    | some h =>
      obtain ⟨a, rfl⟩ := List.length_eq_one_iff.1 (hlen h rfl)
      exact ⟨some a, rfl⟩
  obtain ⟨st, hst⟩ := hsome hx hlen
  obtain ⟨ct, hct⟩ := hsome cx clen
  obtain ⟨o₁, h₁, c₁, o₂, h₂, c₂, m, n, e1, e2, e3⟩ := C67_lstm_layer_pieces l hbf hr hg hq hqc xs ys hxs hys st ct
  have key : ∀ (x : Tensor3 K) (hx cx : Option (Tensor3 K)) st ct o h c, stateAt hx 0 = some st → stateAt cx 0 = some ct →
      l.forward x st ct = some (⟨o, m⟩, ⟨[h], m⟩, ⟨[c], n⟩) → lstmForward [[l]] x hx cx = some (o, [h], [c]) := by
    intro x hx cx st ct o h c h1 h1' h2
    simp [lstmForward, layersLoop, directionsLoop, h1, h1', h2, catLastAll]
  exact ⟨o₁, [h₁], [c₁], o₂, [h₂], [c₂], key _ _ _ _ _ _ _ _ hst hct e1, key _ _ _ _ _ _ _ _ rfl rfl e2,
    key _ _ _ _ _ _ _ _ hst hct e3⟩

/-- Leaving the state out is passing zeros, when the state quantiser keeps zero. -/
theorem C67_missing_state_is_zero (l : RnnLayer K) (hbf : l.batchFirst = false) (hq : l.cell.outputQuant.forward 0 = 0)
    {B : ℕ} (xs : Tensor3 K) (hxs : IsSequence B xs) :
    l.forward xs none = l.forward xs (some (zeroState B l.hidden)) := by
  rw [l.forward_seq hbf xs hxs, l.forward_seq hbf xs hxs]
  have : iniState B l.hidden l.cell.outputQuant (some (zeroState B l.hidden)) =
      iniState B l.hidden l.cell.outputQuant none := by
    simp [iniState, zeroState, hq]
  rw [this]

/-- A sequence without time steps raises. -/
theorem C67_empty_sequence_raises (layers : List (List (RnnLayer K))) (hl : ∀ ds ∈ layers, ds ≠ [])
    (hx : Option (Tensor3 K)) : rnnForward layers [] hx = none := by
  unfold rnnForward
  cases layers with
  | nil => rfl
  | cons ds as =>
    cases ds with
    | nil => exact absurd rfl (hl [] (by simp))
    | cons l ls =>
      have : ∀ st, l.forward [] st = none := by
        intro st
        have hq : maybeQuantizeInput l.quantizeOutputOnly l.cell.outputQuant ([] : Tensor3 K) = [] := by
          unfold maybeQuantizeInput
          cases l.quantizeOutputOnly <;> rfl
        have hu : unbind l.batchFirst ([] : Tensor3 K) = [] := by
          unfold unbind
          cases l.batchFirst <;> rfl
        unfold RnnLayer.forward
        simp only [hq, hu]
        simp [RnnCell.forward, cellLoop, timeLoop, packOutputs, catInfo]
      rw [if_neg (by simp)]
      simp only [layersLoop, directionsLoop, this]
      cases stateAt hx (2 * 0 + 0) <;> rfl

/-! ### The hypotheses hold for the integer quantisers of the library -/

section Int
variable {F : Type*} [Field F] [LinearOrder F] [IsStrictOrderedRing F] [FloorRing F]

/-- The proxy of an integer activation quantiser with a fixed scale and zero point. -/
def intProxy (c : IntQuantCfg F) (scale zeroPoint : F) (b : ℕ) (act : Option (F → F) := none) : ActProxy F :=
  { act := act, quant := some ⟨c.forward scale zeroPoint b, ⟨scale, zeroPoint, b⟩⟩ }

/-- `Idempotent`, the hypothesis of the theorems about pieces, holds for every integer quantiser. -/
theorem intProxy_idempotent (c : IntQuantCfg F) (hr : Shipped c.floatToInt) (scale zeroPoint : F) (hs : scale ≠ 0)
    (b : ℕ) (hb : 1 ≤ b) : Idempotent (intProxy c scale zeroPoint b) := by
  intro x
  rw [ActProxy.fast_value, List.map_map]
  apply List.map_congr_left
  intro row _
  simp only [Function.comp, List.map_map]
  apply List.map_congr_left
  intro v _
  have h1 : ∀ v, (intProxy c scale zeroPoint b).forward v = c.forward scale zeroPoint b v := fun v => rfl
  have h2 : ∀ v, (intProxy c scale zeroPoint b).fastFn v = c.forward scale zeroPoint b v := fun v => rfl
  simp only [Function.comp, h1, h2]
  exact C03_idempotent c hr scale zeroPoint hs b hb v

/-- The hypothesis of `C67_missing_state_is_zero` holds for every integer quantiser whose zero point is a code. -/
theorem intProxy_zero (c : IntQuantCfg F) (hr : Shipped c.floatToInt) (scale : F) (z : ℤ) (b : ℕ) (hb : 1 ≤ b)
    (hz : _root_.Spec.IsCode c.signed c.narrow b z) : (intProxy c scale z b).forward 0 = 0 :=
  C07_zero_exact c hr scale z b hb hz

end Int

/-- A layer with a 4-bit state quantiser of scale 1/4. -/
def fourBit : RnnLayer ℚ where
  cell := ⟨fun x => max x 0, {}, intProxy ⟨true, false, torchRound⟩ (1/4) 0 4⟩
  gate := { inputWeight := [[1], [-1]], hiddenWeight := [[1/2, 0], [1, 1]], bias := some [1/10, 0] }
  hidden := 2
  batchFirst := false
  reverse := false
  quantizeOutputOnly := false
  returnQT := true

example : Idempotent fourBit.cell.outputQuant :=
  intProxy_idempotent _ .round _ _ (by norm_num) _ (by norm_num)

-- a batch of two samples, three steps, in two pieces
example : ∃ o₁ h₁ o₂ h₂, rnnForward [[fourBit]] [[[1], [2]], [[-1], [1/2]]] none = some (o₁, h₁) ∧
    rnnForward [[fourBit]] [[[1/3], [1]]] (some h₁) = some (o₂, h₂) ∧
    rnnForward [[fourBit]] ([[[1], [2]], [[-1], [1/2]]] ++ [[[1/3], [1]]]) none = some (o₁ ++ o₂, h₂) :=
  C67_rnn_pieces_partial fourBit rfl rfl (intProxy_idempotent _ .round _ _ (by norm_num) _ (by norm_num)) (B := 2) _ _
    ⟨by simp, by simp⟩ ⟨by simp, by simp⟩ none (by simp)

example : (rnnForward [[fourBit]] [[[1], [2]], [[-1], [1/2]], [[1/3], [1]]] none).map (·.1) =
    some [[[1, 0], [7/4, 0]], [[0, 7/4], [3/2, 5/4]], [[1/4, 3/2], [7/4, 7/4]]] := by decide +kernel

/-- A second layer on top of it. -/
def fourBitTop : RnnLayer ℚ where
  cell := fourBit.cell
  gate := { inputWeight := [[1, 1], [0, 1]], hiddenWeight := [[1/2, 0], [1, 1]], bias := none }
  hidden := 2
  batchFirst := false
  reverse := false
  quantizeOutputOnly := true
  returnQT := true

-- causality: a stack of two layers
example : ∃ o s o' s', rnnForward ([fourBit, fourBitTop].map fun l => [l]) ([[[1]]] ++ [[[-1]], [[2]]]) none = some (o, s) ∧
    rnnForward ([fourBit, fourBitTop].map fun l => [l]) [[[1]]] none = some (o', s') ∧
    o' = o.take ([[[1]]] : Tensor3 ℚ).length :=
  C67_causal _ (by simp) (by simp [fourBit, fourBitTop]) (B := 1) _ _ ⟨by simp, by simp⟩ (by simp)

-- direction, layout and samples: concrete evaluations
example : ({ fourBit with reverse := true } : RnnLayer ℚ).forward [[[1]], [[2]]] none =
    (fourBit.forward [[[2]], [[1]]] none).map fun r => (⟨r.1.value.reverse, r.1.info⟩, r.2) :=
  C67_rnn_reverse fourBit rfl (B := 1) _ ⟨by simp, by simp⟩ none

example : rnnForward [[({ fourBit with batchFirst := true } : RnnLayer ℚ)]]
      (swapDims 2 [[[1], [2]], [[-1], [1/2]], [[1/3], [1]]]) none =
    (rnnForward [[fourBit]] [[[1], [2]], [[-1], [1/2]], [[1/3], [1]]] none).map fun r => (swapDims 2 r.1, r.2) :=
  C67_rnn_batch_first [[fourBit]] (by norm_num) _ ⟨by simp, by simp⟩ none (by simp [StatesFor])

example : swapDims 2 ([[[1], [2]], [[-1], [1/2]], [[1/3], [1]]] : Tensor3 ℚ) =
    [[[1], [-1], [1/3]], [[2], [1/2], [1]]] := by decide +kernel

example : rnnForward [[fourBit]] [[[2]], [[1/2]], [[1]]] (some [[[0, 1]]]) =
    (rnnForward [[fourBit]] [[[1], [2]], [[-1], [1/2]], [[1/3], [1]]] (some [[[1, 1], [0, 1]]])).map
      fun r => (pickSeq 1 r.1, pickSeq 1 r.2) :=
  C67_rnn_samples_independent [[fourBit]] (by simp [fourBit]) (B := 2) (b := 1) (by norm_num)
    [[[1], [2]], [[-1], [1/2]], [[1/3], [1]]] ⟨by simp, by simp⟩ (some [[[1, 1], [0, 1]]]) (by simp [StatesFor])

/-- An LSTM layer with 4-bit quantisers for the outputs and the cell state. -/
def fourBitLstm : LstmLayer ℚ where
  cell := { plainLstmCell (fun x => x / 4) (fun x => x / 2) false with
    outputQuant := intProxy ⟨true, false, torchRound⟩ (1/4) 0 4
    cellStateQuant := intProxy ⟨true, false, torchRound⟩ (1/2) 0 4 }
  inputGate := { inputWeight := [[1]], hiddenWeight := [[1/2]], bias := none }
  forgetGate := some { inputWeight := [[2]], hiddenWeight := [[1]], bias := some [1] }
  cellGate := { inputWeight := [[3]], hiddenWeight := [[1]], bias := none }
  outputGate := { inputWeight := [[4]], hiddenWeight := [[1]], bias := none }
  hidden := 1
  batchFirst := false
  reverse := false
  quantizeOutputOnly := false
  returnQT := true

example : ∃ o₁ h₁ c₁ o₂ h₂ c₂, lstmForward [[fourBitLstm]] [[[1]], [[3/2]]] none none = some (o₁, h₁, c₁) ∧
    lstmForward [[fourBitLstm]] [[[1]]] (some h₁) (some c₁) = some (o₂, h₂, c₂) ∧
    lstmForward [[fourBitLstm]] ([[[1]], [[3/2]]] ++ [[[1]]]) none none = some (o₁ ++ o₂, h₂, c₂) :=
  C67_lstm_pieces_partial fourBitLstm rfl rfl (Or.inr rfl)
    (intProxy_idempotent _ .round _ _ (by norm_num) _ (by norm_num))
    (intProxy_idempotent _ .round _ _ (by norm_num) _ (by norm_num)) (B := 1) _ _
    ⟨by simp, by simp⟩ ⟨by simp, by simp⟩ none none (by simp) (by simp)

example : (lstmForward [[fourBitLstm]] [[[1]], [[3/2]]] none none).map (fun r => (r.1, r.2.2)) =
    some ([[[1/4]], [[5/4]]], [[[3/2]]]) := by decide +kernel

end Brevitas.Props
