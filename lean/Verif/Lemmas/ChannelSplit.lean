import Verif.Model.ChannelSplit
import Verif.Lemmas.Equalize
import Verif.Lemmas.Network

/-! # Lemmas on channel splitting -/

set_option linter.unusedSectionVars false

namespace Brevitas.ChannelSplit

open Net Equalize

variable {K : Type*} [Field K] [LinearOrder K] [IsStrictOrderedRing K] [FloorRing K]

/-! ## Signals -/

/-- Channel `id` multiplied by `h`, with a copy at channel `N`. -/
def stepSig (h : K) (N id : ℕ) (x : Signal K) : Signal K := fun c p => if c = id ∨ c = N then h * x id p else x c p

/-- Several splits one after the other. -/
def stepsSig (h : K) : ℕ → List ℕ → Signal K → Signal K
  | _, [], x => x
  | N, id :: ids, x => stepsSig h (N + 1) ids (stepSig h N id x)

/-- Every split refers to an existing channel. -/
def Valid : ℕ → List ℕ → Prop
  | _, [] => True
  | N, id :: ids => id < N ∧ Valid (N + 1) ids

theorem valid_of_lt {N : ℕ} {ids : List ℕ} (h : ∀ id ∈ ids, id < N) : Valid N ids := by
  induction ids generalizing N with
  | nil => trivial
  | cons a ids ih => exact ⟨h a (by simp), ih fun b hb => (h b (by simp [hb])).trans (Nat.lt_succ_self _)⟩

theorem stepsSig_zero (h : K) (N : ℕ) (ids : List ℕ) : stepsSig h N ids (fun _ _ => 0) = fun _ _ => 0 := by
  induction ids generalizing N with
  | nil => rfl
  | cons a ids ih =>
    have : stepSig h N a (fun _ _ => (0 : K)) = fun _ _ => 0 := by
      funext c p
      simp [stepSig]
    rw [stepsSig, this, ih]

/-! ## Layers -/

theorem eval_dense {L : Layer K} (hk : L.kind = .dense) (x : Signal K) (o p : ℕ) :
    L.eval x o p = if o < L.outCh then (∑ i ∈ Finset.range L.inCh, ∑ t ∈ Finset.range L.taps,
      L.w o i t * L.sample (x i) p t) + L.biasAt o else 0 := by
  unfold Layer.eval Layer.reads
  rw [hk]

theorem sample_mul_left (L : Layer K) (h : K) (x : ℕ → K) (p t : ℕ) :
    L.sample (fun q => h * x q) p t = h * L.sample x p t := by
  unfold Layer.sample
  cases L.tap p t with
  | none => simp
  | some q => rfl

theorem splitOutStep_eval {L : Layer K} (hk : L.kind = .dense) (h : K) {id : ℕ} (hid : id < L.outCh) (x : Signal K) :
    (splitOutStep h L id).eval x = stepSig h L.outCh id (L.eval x) := by
  funext o p
  have hk' : (splitOutStep h L id).kind = .dense := hk
  rw [eval_dense hk']
  unfold stepSig
  have hb : (splitOutStep h L id).biasAt o = if o = id ∨ o = L.outCh then L.biasAt id * h else L.biasAt o := by
    unfold splitOutStep Layer.biasAt
    cases hLb : L.b with
    | none => simp
    | some b => simp
  have hs : ∀ y : ℕ → K, ∀ t, (splitOutStep h L id).sample y p t = L.sample y p t := fun _ _ => rfl
  by_cases hc : o = id ∨ o = L.outCh
  · rw [if_pos hc, eval_dense hk, if_pos hid, hb, if_pos hc, if_pos (by
      show o < L.outCh + 1
      omega)]
    have : ∀ i t, (splitOutStep h L id).w o i t = L.w id i t * h := fun i t => by simp [splitOutStep, hc]
    simp only [this, hs]
    rw [mul_add, Finset.mul_sum]
    congr 1
    · apply Finset.sum_congr rfl
      intro i _
      rw [Finset.mul_sum]
      apply Finset.sum_congr rfl
      intro t _
      ring
    · ring
  · rw [if_neg hc, eval_dense hk, hb, if_neg hc]
    have : ∀ i t, (splitOutStep h L id).w o i t = L.w o i t := fun i t => by
      simp only [splitOutStep, if_neg hc]
    simp only [this, hs]
    by_cases ho : o < L.outCh
    · rw [if_pos ho, if_pos (by show o < L.outCh + 1; omega)]
      rfl
    · rw [if_neg ho, if_neg (by show ¬ o < L.outCh + 1; omega)]

theorem splitInStep_eval {L : Layer K} (hk : L.kind = .dense) {h h' : K} (hh : 2 * (h * h') = 1) {id : ℕ}
    (hid : id < L.inCh) (x : Signal K) : (splitInStep h' L id).eval (stepSig h L.inCh id x) = L.eval x := by
  funext o p
  have hk' : (splitInStep h' L id).kind = .dense := hk
  rw [eval_dense hk', eval_dense hk]
  have ho : (splitInStep h' L id).outCh = L.outCh := rfl
  rw [ho]
  congr 1
  have hb : (splitInStep h' L id).biasAt o = L.biasAt o := rfl
  rw [hb]
  congr 1
  have hin : (splitInStep h' L id).inCh = L.inCh + 1 := rfl
  have ht : (splitInStep h' L id).taps = L.taps := rfl
  rw [hin, ht, Finset.sum_range_succ]
  set F : ℕ → K := fun i => ∑ t ∈ Finset.range L.taps, L.w o i t * L.sample (x i) p t with hF
  have hterm : ∀ i, (∑ t ∈ Finset.range L.taps, (splitInStep h' L id).w o i t *
      (splitInStep h' L id).sample (stepSig h L.inCh id x i) p t)
      = if i = id ∨ i = L.inCh then (h * h') * F id else F i := by
    intro i
    have hs : ∀ y : ℕ → K, ∀ t, (splitInStep h' L id).sample y p t = L.sample y p t := fun _ _ => rfl
    by_cases hc : i = id ∨ i = L.inCh
    · rw [if_pos hc, hF, Finset.mul_sum]
      apply Finset.sum_congr rfl
      intro t _
      have h1 : (splitInStep h' L id).w o i t = L.w o id t * h' := by simp only [splitInStep, if_pos hc]
      have h2 : stepSig h L.inCh id x i = fun q => h * x id q := by
        funext q
        simp only [stepSig, if_pos hc]
      rw [hs, h1, h2, sample_mul_left]
      ring
    · rw [if_neg hc, hF]
      apply Finset.sum_congr rfl
      intro t _
      have h1 : (splitInStep h' L id).w o i t = L.w o i t := by simp only [splitInStep, if_neg hc]
      have h2 : stepSig h L.inCh id x i = x i := by
        funext q
        simp only [stepSig, if_neg hc]
      rw [hs, h1, h2]
  simp only [hterm]
  rw [if_pos (Or.inr trivial)]
  have hmem : id ∈ Finset.range L.inCh := Finset.mem_range.2 hid
  rw [← Finset.add_sum_erase _ _ hmem, ← Finset.add_sum_erase _ F hmem, if_pos (Or.inl rfl)]
  have : ∑ i ∈ (Finset.range L.inCh).erase id, (if i = id ∨ i = L.inCh then h * h' * F id else F i)
      = ∑ i ∈ (Finset.range L.inCh).erase id, F i := by
    apply Finset.sum_congr rfl
    intro i hi
    rw [Finset.mem_erase, Finset.mem_range] at hi
    rw [if_neg (by omega)]
  rw [this]
  have e : h * h' * F id + h * h' * F id = F id := by
    rw [← two_mul, ← mul_assoc, hh, one_mul]
  linear_combination e

theorem splitChannels_cons (id : ℕ) (ids : List ℕ) (s : Bool) (f : K) (L : Layer K) :
    splitChannels (id :: ids) s f L
      = splitChannels ids s f (if s then splitInStep f L id else splitOutStep f L id) := by
  cases s <;> rfl

theorem splitOut_eval {L : Layer K} (hk : L.kind = .dense) (h : K) {ids : List ℕ} (hv : Valid L.outCh ids) (x : Signal K) :
    (splitChannels ids false h L).eval x = stepsSig h L.outCh ids (L.eval x) := by
  induction ids generalizing L with
  | nil => rfl
  | cons id ids ih =>
    rw [splitChannels_cons]
    simp only [Bool.false_eq_true, if_false]
    rw [ih (L := splitOutStep h L id) hk hv.2, stepsSig, splitOutStep_eval hk h hv.1]
    rfl

theorem splitIn_eval {L : Layer K} (hk : L.kind = .dense) {h h' : K} (hh : 2 * (h * h') = 1) {ids : List ℕ}
    (hv : Valid L.inCh ids) (x : Signal K) :
    (splitChannels ids true h' L).eval (stepsSig h L.inCh ids x) = L.eval x := by
  induction ids generalizing L x with
  | nil => rfl
  | cons id ids ih =>
    rw [splitChannels_cons]
    simp only [if_true, stepsSig]
    rw [← splitInStep_eval hk hh hv.1 x]
    exact ih (L := splitInStep h' L id) hk hv.2 _

theorem splitChannels_in_shape (ids : List ℕ) (f : K) (L : Layer K) :
    (splitChannels ids true f L).kind = L.kind ∧ (splitChannels ids true f L).outCh = L.outCh ∧
      (splitChannels ids true f L).inCh = L.inCh + ids.length := by
  induction ids generalizing L with
  | nil => exact ⟨rfl, rfl, rfl⟩
  | cons id ids ih =>
    rw [splitChannels_cons]
    simp only [if_true]
    obtain ⟨h1, h2, h3⟩ := ih (splitInStep f L id)
    refine ⟨h1, h2, ?_⟩
    rw [h3, List.length_cons]
    simp only [splitInStep]
    omega

theorem splitChannels_out_shape (ids : List ℕ) (f : K) (L : Layer K) :
    (splitChannels ids false f L).kind = L.kind ∧ (splitChannels ids false f L).inCh = L.inCh ∧
      (splitChannels ids false f L).outCh = L.outCh + ids.length := by
  induction ids generalizing L with
  | nil => exact ⟨rfl, rfl, rfl⟩
  | cons id ids ih =>
    rw [splitChannels_cons]
    simp only [Bool.false_eq_true, if_false]
    obtain ⟨h1, h2, h3⟩ := ih (splitOutStep f L id)
    refine ⟨h1, h2, ?_⟩
    rw [h3, List.length_cons]
    simp only [splitOutStep]
    omega

/-! ## Layers without weights -/

theorem listMax_mul_left (h : K) (hh : 0 < h) (xs : List K) : listMax (xs.map fun x => h * x) = h * listMax xs := by
  have := listMax_mul h hh xs
  rw [mul_comm]
  rw [← this]
  congr 1
  apply List.map_congr_left
  intro x _
  ring

/-- Layers without weights act channel by channel. -/
theorem act_eval_channel (a : Act K) (x y : Signal K) (c d : ℕ) (h : K) (hh : 0 < h) (hxy : ∀ p, y c p = h * x d p) (p : ℕ) :
    a.eval y c p = h * a.eval x d p := by
  cases a with
  | leaky s =>
    simp only [Act.eval, hxy]
    by_cases h0 : 0 ≤ x d p
    · rw [if_pos h0, if_pos (mul_nonneg hh.le h0)]
    · have : ¬ 0 ≤ h * x d p := fun hc => h0 (nonneg_of_mul_nonneg_right hc hh)
      rw [if_neg h0, if_neg this]
      ring
  | maxPool win =>
    simp only [Act.eval]
    rw [← listMax_mul_left h hh, List.map_map]
    congr 1
    apply List.map_congr_left
    intro q _
    exact hxy q
  | avgPool win d' =>
    simp only [Act.eval]
    rw [← mul_div_assoc, ← List.sum_map_mul_left]
    congr 2
    apply List.map_congr_left
    intro q _
    exact hxy q

theorem act_stepSig (a : Act K) {h : K} (hh : 0 < h) (N id : ℕ) (x : Signal K) :
    a.eval (stepSig h N id x) = stepSig h N id (a.eval x) := by
  funext c p
  by_cases hc : c = id ∨ c = N
  · conv_rhs => rw [stepSig, if_pos hc]
    exact act_eval_channel a x _ c id h hh (fun p => by rw [stepSig, if_pos hc]) p
  · conv_rhs => rw [stepSig, if_neg hc]
    have := act_eval_channel a x (stepSig h N id x) c c 1 one_pos (fun p => by rw [stepSig, if_neg hc, one_mul]) p
    rw [this, one_mul]

theorem act_stepsSig (a : Act K) {h : K} (hh : 0 < h) (N : ℕ) (ids : List ℕ) (x : Signal K) :
    a.eval (stepsSig h N ids x) = stepsSig h N ids (a.eval x) := by
  induction ids generalizing N x with
  | nil => rfl
  | cons id ids ih => rw [stepsSig, ih, act_stepSig a hh]; rfl

theorem sum_stepSig (h : K) (N id : ℕ) (l : List (Signal K)) :
    (fun c p => ((l.map (stepSig h N id)).map fun x => x c p).sum) = stepSig h N id fun c p => (l.map fun x => x c p).sum := by
  funext c p
  by_cases hc : c = id ∨ c = N
  · simp only [stepSig, if_pos hc, List.map_map]
    rw [← List.sum_map_mul_left]
    congr 1
    apply List.map_congr_left
    intro x _
    simp only [Function.comp, stepSig, if_pos hc]
  · simp only [stepSig, if_neg hc, List.map_map]
    congr 1
    apply List.map_congr_left
    intro x _
    simp only [Function.comp, stepSig, if_neg hc]

theorem sum_stepsSig (h : K) (N : ℕ) (ids : List ℕ) (l : List (Signal K)) :
    (fun c p => ((l.map (stepsSig h N ids)).map fun x => x c p).sum) = stepsSig h N ids fun c p => (l.map fun x => x c p).sum := by
  induction ids generalizing N l with
  | nil => simp [stepsSig]
  | cons id ids ih =>
    simp only [stepsSig]
    rw [← sum_stepSig, ← ih, List.map_map]
    rfl

theorem stepsSig_add_const (N : ℕ) (ids : List ℕ) (x : Signal K) (k : K) :
    (fun c p => stepsSig 1 N ids x c p + k) = stepsSig 1 N ids fun c p => x c p + k := by
  induction ids generalizing N x with
  | nil => rfl
  | cons id ids ih =>
    simp only [stepsSig]
    rw [ih]
    congr 1
    funext c p
    simp only [stepSig, one_mul]
    split_ifs <;> rfl

/-! ## Networks -/

/-- Networks without products, where every layer is used at one place. -/
structure NoMuls (g : Graph K) : Prop where
  unary : ∀ n < g.length, (∀ k, (nodeAt g n).op ≠ .add k) → (∀ k, (nodeAt g n).op ≠ .input k) → (∀ s, (nodeAt g n).op ≠ .cat s) → ∃ i, (nodeAt g n).ins = [i]
  noMul : ∀ n, (nodeAt g n).op ≠ .mul
  once : ∀ n n' m, (nodeAt g n).op = .module m → (nodeAt g n').op = .module m → n = n'

theorem noMuls_of_noProducts {g : Graph K} (hg : NoProducts g) : NoMuls g := ⟨fun n hn h1 h2 _ => hg.unary n hn h1 h2, hg.noMul, hg.once⟩

/-- A set of nodes whose values are all produced by the sources and all consumed by the sinks. -/
structure ClosedNames (g : Graph K) (srcs sinks : List ℕ) (S : ℕ → Prop) : Prop where
  own : ∀ n, S n →
    match (nodeAt g n).op with
    | .module m => m ∈ srcs
    | .act _ | .add _ => ∀ i ∈ (nodeAt g n).ins, S i
    | _ => False
  user : ∀ n v, S n → v < g.length → n ∈ (nodeAt g v).ins →
    match (nodeAt g v).op with
    | .module m => m ∈ sinks
    | .act _ | .add _ => S v
    | _ => False
  src : ∀ m ∈ srcs, ∃ n, (nodeAt g n).op = .module m ∧ S n
  sink : ∀ m ∈ sinks, ∃ n u, (nodeAt g n).op = .module m ∧ u ∈ (nodeAt g n).ins ∧ S u
  srcsNodup : srcs.Nodup
  sinksNodup : sinks.Nodup

theorem closedNames {g : Graph K} {store : ℕ → Layer K} {r : Region} {S : ℕ → Prop} (h : Closed g store r S) :
    ClosedNames g (r.srcs.map Prod.fst) (r.sinks.map Prod.fst) S := by
  refine ⟨?_, ?_, ?_, ?_, names_nodup h.srcsNodup (fun m ix h' => (h.src m ix h').1),
    names_nodup h.sinksNodup (fun m ix h' => (h.sink m ix h').1)⟩
  · intro n hn
    have := h.own n hn
    cases hop : (nodeAt g n).op <;> rw [hop] at this <;> dsimp only at this ⊢
    · exact List.mem_map.2 ⟨_, this, rfl⟩
    · exact this
    · exact this
  · intro n v hn hv hin
    have := h.user n v hn hv hin
    cases hop : (nodeAt g v).op <;> rw [hop] at this <;> dsimp only at this ⊢
    · exact List.mem_map.2 ⟨_, this, rfl⟩
    · exact this
    · exact this
  · intro m hm
    obtain ⟨⟨m', ix⟩, h1, rfl⟩ := List.mem_map.1 hm
    exact (h.src _ _ h1).2
  · intro m hm
    obtain ⟨⟨m', ix⟩, h1, rfl⟩ := List.mem_map.1 hm
    exact (h.sink _ _ h1).2.2

theorem lt_of_op {g : Graph K} {n : ℕ} (h : (nodeAt g n).op ≠ .output) : n < g.length := by
  by_contra hn
  apply h
  unfold nodeAt
  rw [List.getD_eq_default _ _ (by omega)]

open Classical in
/-- How the value of node `n` changes. -/
noncomputable def tr (S : ℕ → Prop) (h : K) (N : ℕ) (ids : List ℕ) (n : ℕ) (x : Signal K) : Signal K :=
  if S n then stepsSig h N ids x else x

open Classical in
/-- What the new layers must do: undo the change of their input if it is a changed value, and produce a changed value
where one is expected. -/
def LayersOk (g : Graph K) (S : ℕ → Prop) (h : K) (N : ℕ) (ids : List ℕ) (store store' : ℕ → Layer K) : Prop :=
  ∀ n m i x, (nodeAt g n).op = .module m → (nodeAt g n).ins = [i] →
    (store' m).eval (tr S h N ids i x) = tr S h N ids n ((store m).eval x)

theorem evalNode_tr {g : Graph K} (hg : NoMuls g) {srcs sinks : List ℕ} {S : ℕ → Prop} (hc : ClosedNames g srcs sinks S)
    {h : K} (hh : 0 < h)
    (hk : (∀ n k, (nodeAt g n).op = .add k → k = none) ∨ h = 1) {N : ℕ} {ids : List ℕ} {store store' : ℕ → Layer K}
    (hl : LayersOk g S h N ids store store') (inputs : ℕ → Signal K) {env env' : List (Signal K)} {n : ℕ}
    (hn : n < g.length)
    (he : ∀ i, (env'.getD i fun _ _ => 0) = tr S h N ids i (env.getD i fun _ _ => 0)) :
    evalNode store' inputs env' (nodeAt g n) = tr S h N ids n (evalNode store inputs env (nodeAt g n)) := by
  have hnot : ∀ i, (nodeAt g n).ins = [i] → (match (nodeAt g n).op with
    | .module _ | .act _ | .add _ => False
    | _ => True) → ¬ S i ∧ ¬ S n := by
    intro i hi hop
    constructor
    · intro hS
      have := hc.user i n hS hn (by rw [hi]; simp)
      cases h1 : (nodeAt g n).op <;> rw [h1] at this hop <;> simp at this hop
    · intro hS
      have := hc.own n hS
      cases h1 : (nodeAt g n).op <;> rw [h1] at this hop <;> simp at this hop
  cases hop : (nodeAt g n).op with
  | input k =>
    have hS : ¬ S n := by
      intro hS
      have := hc.own n hS
      rw [hop] at this
      exact this
    unfold evalNode
    rw [hop]
    simp only [tr, if_neg hS]
  | module m =>
    obtain ⟨i, hi⟩ := hg.unary n hn (by rw [hop]; simp) (by rw [hop]; simp) (by rw [hop]; simp)
    have := hl n m i (env.getD i fun _ _ => 0) hop hi
    unfold evalNode
    rw [hop, hi]
    dsimp only
    rw [he i, this]
  | act a =>
    obtain ⟨i, hi⟩ := hg.unary n hn (by rw [hop]; simp) (by rw [hop]; simp) (by rw [hop]; simp)
    have hiff : S i ↔ S n := by
      constructor
      · intro hS
        have := hc.user i n hS hn (by rw [hi]; simp)
        rw [hop] at this
        exact this
      · intro hS
        have := hc.own n hS
        rw [hop] at this
        exact this i (by rw [hi]; simp)
    unfold evalNode
    rw [hop, hi]
    dsimp only
    rw [he i]
    unfold tr
    by_cases hS : S n
    · rw [if_pos hS, if_pos (hiff.2 hS), act_stepsSig a hh]
    · rw [if_neg hS, if_neg (fun h => hS (hiff.1 h))]
  | add k =>
    have hiff : ∀ i ∈ (nodeAt g n).ins, (S i ↔ S n) := by
      intro i hi
      constructor
      · intro hS
        have := hc.user i n hS hn hi
        rw [hop] at this
        exact this
      · intro hS
        have := hc.own n hS
        rw [hop] at this
        exact this i hi
    unfold evalNode
    rw [hop]
    dsimp only
    by_cases hS : S n
    · conv_rhs => rw [tr, if_pos hS]
      have e := sum_stepsSig h N ids ((nodeAt g n).ins.map fun i => env.getD i fun _ _ => 0)
      simp only [List.map_map] at e
      have e1 : (fun c p => ((nodeAt g n).ins.map fun i => (env'.getD i fun _ _ => 0) c p).sum)
          = stepsSig h N ids fun c p => ((nodeAt g n).ins.map fun i => (env.getD i fun _ _ => 0) c p).sum := by
        refine Eq.trans ?_ (Eq.trans e ?_)
        · funext c p
          congr 1
          apply List.map_congr_left
          intro i hi
          rw [he i]
          simp only [tr, if_pos ((hiff i hi).2 hS), Function.comp]
        · rfl
      rcases hk with hk | hk
      · rw [hk n k hop]
        simp only [Option.getD_none, add_zero]
        exact e1
      · subst hk
        rw [← stepsSig_add_const, ← e1]
    · conv_rhs => rw [tr, if_neg hS]
      funext c p
      congr 2
      apply List.map_congr_left
      intro i hi
      rw [he i]
      simp only [tr, if_neg (fun h => hS ((hiff i hi).1 h))]
  | mul => exact absurd hop (hg.noMul n)
  | cat s =>
    have hS : ¬ S n := by
      intro hS
      have := hc.own n hS
      rw [hop] at this
      exact this
    have hin : ∀ i ∈ (nodeAt g n).ins, ¬ S i := by
      intro i hi hS
      have := hc.user i n hS hn hi
      rw [hop] at this
      exact this
    unfold evalNode
    rw [hop]
    dsimp only
    conv_rhs => rw [tr, if_neg hS]
    have e : ((nodeAt g n).ins.map fun i => env'.getD i fun _ _ => 0) = (nodeAt g n).ins.map fun i => env.getD i fun _ _ => 0 := by
      apply List.map_congr_left
      intro i hi
      rw [he i, tr, if_neg (hin i hi)]
    rw [e]
  | other f =>
    obtain ⟨i, hi⟩ := hg.unary n hn (by rw [hop]; simp) (by rw [hop]; simp) (by rw [hop]; simp)
    obtain ⟨h1, h2⟩ := hnot i hi (by rw [hop]; trivial)
    unfold evalNode
    rw [hop, hi]
    dsimp only
    rw [he i]
    simp only [tr, if_neg h1, if_neg h2]
  | output =>
    obtain ⟨i, hi⟩ := hg.unary n hn (by rw [hop]; simp) (by rw [hop]; simp) (by rw [hop]; simp)
    obtain ⟨h1, h2⟩ := hnot i hi (by rw [hop]; trivial)
    unfold evalNode
    rw [hop, hi]
    dsimp only
    rw [he i]
    simp only [tr, if_neg h1, if_neg h2]

theorem run_take_succ (store : ℕ → Layer K) (inputs : ℕ → Signal K) (g : Graph K) (k : ℕ) (hk : k < g.length) :
    run store inputs (g.take (k + 1)) = run store inputs (g.take k)
      ++ [evalNode store inputs (run store inputs (g.take k)) (nodeAt g k)] := by
  rw [List.take_succ_eq_append_getElem hk, run_append]
  unfold nodeAt
  rw [List.getD_eq_getElem _ _ hk]

theorem run_tr {g : Graph K} (hg : NoMuls g) {srcs sinks : List ℕ} {S : ℕ → Prop} (hc : ClosedNames g srcs sinks S)
    {h : K} (hh : 0 < h)
    (hk' : (∀ n k, (nodeAt g n).op = .add k → k = none) ∨ h = 1) {N : ℕ} {ids : List ℕ} {store store' : ℕ → Layer K}
    (hl : LayersOk g S h N ids store store') (inputs : ℕ → Signal K) (i : ℕ) :
    ((run store' inputs g).getD i fun _ _ => 0) = tr S h N ids i ((run store inputs g).getD i fun _ _ => 0) := by
  have hz : ∀ i, tr S h N ids i (fun _ _ => (0 : K)) = fun _ _ => 0 := by
    intro i
    unfold tr
    split_ifs
    · exact stepsSig_zero h N ids
    · rfl
  have key : ∀ k ≤ g.length, ∀ i, ((run store' inputs (g.take k)).getD i fun _ _ => 0)
      = tr S h N ids i ((run store inputs (g.take k)).getD i fun _ _ => 0) := by
    intro k
    induction k with
    | zero => intro _ i; simp only [List.take_zero, run, List.foldl_nil, List.getD_nil]; exact (hz i).symm
    | succ k ih =>
      intro hk i
      have ih' := ih (by omega)
      rw [run_take_succ _ _ _ _ hk, run_take_succ _ _ _ _ hk]
      have hlen : ∀ st, (run st inputs (g.take k)).length = k := by
        intro st
        rw [length_run, List.length_take]
        omega
      rcases lt_trichotomy i k with hi | hi | hi
      · have e1 : ∀ st, ((run st inputs (g.take k) ++ [evalNode st inputs (run st inputs (g.take k)) (nodeAt g k)]).getD i
            fun _ _ => 0) = (run st inputs (g.take k)).getD i fun _ _ => 0 := by
          intro st
          rw [List.getD_eq_getElem?_getD, List.getD_eq_getElem?_getD,
            List.getElem?_append_left (by rw [hlen]; exact hi)]
        rw [e1, e1]
        exact ih' i
      · have e1 : ∀ st, ((run st inputs (g.take k) ++ [evalNode st inputs (run st inputs (g.take k)) (nodeAt g k)]).getD i
            fun _ _ => 0) = evalNode st inputs (run st inputs (g.take k)) (nodeAt g k) := by
          intro st
          rw [List.getD_eq_getElem?_getD, List.getElem?_append_right (by rw [hlen]; omega), hlen, hi]
          simp
        rw [e1, e1, hi]
        exact evalNode_tr hg hc hh hk' hl inputs hk ih'
      · have e1 : ∀ st, ((run st inputs (g.take k) ++ [evalNode st inputs (run st inputs (g.take k)) (nodeAt g k)]).getD i
            fun _ _ => 0) = fun _ _ => (0 : K) := by
          intro st
          rw [List.getD_eq_getElem?_getD, List.getElem?_eq_none (by simp [hlen]; omega)]
          rfl
        rw [e1, e1, hz]
  have := key g.length le_rfl i
  rwa [List.take_length] at this

theorem outputs_of_run {g : Graph K} {store store' : ℕ → Layer K} (inputs : ℕ → Signal K)
    (h : ∀ n nd, g[n]? = some nd → nd.isOutput →
      ((run store' inputs g).getD n fun _ _ => 0) = (run store inputs g).getD n fun _ _ => 0) :
    outputs store' g inputs = outputs store g inputs := by
  unfold outputs
  congr 1
  have aux : ∀ (gs : Graph K) (a b : List (Signal K)), a.length = gs.length → b.length = gs.length →
      (∀ (i : ℕ) (nd : Node K), gs[i]? = some nd → nd.isOutput → a[i]? = b[i]?) →
      (gs.zip a).filter (fun nv => nv.1.isOutput) = (gs.zip b).filter (fun nv => nv.1.isOutput) := by
    intro gs
    induction gs with
    | nil => intros; rfl
    | cons x gs ih =>
      intro a b ha hb hab
      cases a with
      | nil => simp at ha
      | cons a0 a =>
        cases b with
        | nil => simp at hb
        | cons b0 b =>
          simp only [List.length_cons, add_left_inj] at ha hb
          have h0 := hab 0 x rfl
          have hr := ih a b ha hb (fun i nd hi ho => hab (i + 1) nd hi ho)
          simp only [List.zip_cons_cons, List.filter_cons]
          by_cases hx : x.isOutput = true
          · have := h0 hx
            simp only [List.getElem?_cons_zero, Option.some.injEq] at this
            rw [if_pos hx, if_pos hx, hr, this]
          · rw [if_neg hx, if_neg hx, hr]
  apply aux
  · rw [length_run]
  · rw [length_run]
  · intro i nd hi ho
    have hlt : i < g.length := by
      by_contra hcon
      rw [List.getElem?_eq_none (by omega)] at hi
      cases hi
    have := h i nd hi ho
    rw [List.getD_eq_getElem _ _ (by rw [length_run]; exact hlt),
      List.getD_eq_getElem _ _ (by rw [length_run]; exact hlt)] at this
    rw [List.getElem?_eq_getElem (by rw [length_run]; exact hlt), List.getElem?_eq_getElem (by rw [length_run]; exact hlt),
      this]

theorem outputs_tr {g : Graph K} (hg : NoMuls g) {srcs sinks : List ℕ} {S : ℕ → Prop} (hc : ClosedNames g srcs sinks S)
    {h : K} (hh : 0 < h)
    (hk : (∀ n k, (nodeAt g n).op = .add k → k = none) ∨ h = 1) {N : ℕ} {ids : List ℕ} {store store' : ℕ → Layer K}
    (hl : LayersOk g S h N ids store store') (inputs : ℕ → Signal K) :
    outputs store' g inputs = outputs store g inputs := by
  apply outputs_of_run
  intro n nd hn ho
  rw [run_tr hg hc hh hk hl inputs n]
  have hS : ¬ S n := by
    intro hS
    have h1 := hc.own n hS
    have e : nodeAt g n = nd := by
      unfold nodeAt
      rw [List.getD_eq_getElem?_getD, hn]
      rfl
    rw [e] at h1
    unfold Node.isOutput at ho
    cases hop : nd.op <;> rw [hop] at h1 ho <;> simp at h1 ho
  simp only [tr, if_neg hS]

/-! ## One region -/

theorem foldl_update (f : Layer K → Layer K) (l : List ℕ) (hl : l.Nodup) (store : ℕ → Layer K) (m : ℕ) :
    l.foldl (fun st m => updateStore st m f) store m = if m ∈ l then f (store m) else store m := by
  induction l generalizing store with
  | nil => simp
  | cons a l ih =>
    rw [List.nodup_cons] at hl
    rw [List.foldl_cons, ih hl.2]
    by_cases hm : m = a
    · subst hm
      rw [if_neg hl.1, if_pos (by simp)]
      simp [updateStore]
    · have e : updateStore store a f m = store m := by simp [updateStore, hm]
      rw [e]
      by_cases hml : m ∈ l
      · rw [if_pos hml, if_pos (by simp [hml])]
      · rw [if_neg hml, if_neg (by simp [hml, hm])]

/-- The layers of a region that channel splitting accepts. -/
structure RegionOk (store : ℕ → Layer K) (srcs sinks : List ℕ) (N : ℕ) : Prop where
  srcs : ∀ m ∈ srcs, (store m).kind = .dense ∧ (store m).outCh = N
  sinks : ∀ m ∈ sinks, (store m).kind = .dense ∧ (store m).inCh = N

theorem splitRegion_apply (srcs sinks : List ℕ) (h1 : srcs.Nodup) (h2 : sinks.Nodup) (ids : List ℕ) (s : Bool)
    (store : ℕ → Layer K) (m : ℕ) :
    splitRegion srcs sinks ids s store m =
      if s then
        let L := if m ∈ sinks then splitChannels ids true (1 / 2) (store m) else store m
        if m ∈ srcs then splitChannels ids false 1 L else L
      else
        let L := if m ∈ srcs then splitChannels ids false (1 / 2) (store m) else store m
        if m ∈ sinks then splitChannels ids true 1 L else L := by
  unfold splitRegion
  cases s
  · simp only [Bool.not_false, if_true, Bool.false_eq_true, if_false]
    rw [foldl_update _ _ h2, foldl_update _ _ h1]
  · simp only [Bool.not_true, if_true, Bool.false_eq_true, if_false]
    rw [foldl_update _ _ h1, foldl_update _ _ h2]

theorem splitRegion_layersOk {g : Graph K} (hg : NoMuls g) {srcs sinks : List ℕ} {S : ℕ → Prop}
    (hc : ClosedNames g srcs sinks S) {store : ℕ → Layer K} {N : ℕ} (hr : RegionOk store srcs sinks N) {ids : List ℕ}
    (hids : Valid N ids) (s : Bool) :
    LayersOk g S (if s then 1 else 1 / 2) N ids store (splitRegion srcs sinks ids s store) := by
  intro n m i x hop hi
  have hn : n < g.length := lt_of_op (by rw [hop]; simp)
  have hsrc : S n ↔ m ∈ srcs := by
    constructor
    · intro hS
      have := hc.own n hS
      rw [hop] at this
      exact this
    · intro hm
      obtain ⟨n', h1, h2⟩ := hc.src m hm
      rwa [hg.once n n' m hop h1]
  have hsink : S i ↔ m ∈ sinks := by
    constructor
    · intro hS
      have := hc.user i n hS hn (by rw [hi]; simp)
      rw [hop] at this
      exact this
    · intro hm
      obtain ⟨n', u, h1, h2, h3⟩ := hc.sink m hm
      rw [← hg.once n n' m hop h1, hi, List.mem_singleton] at h2
      rwa [← h2]
  rw [splitRegion_apply srcs sinks hc.srcsNodup hc.sinksNodup]
  unfold tr
  have key : ∀ h h' : K, 2 * (h * h') = 1 → ∀ (p q : Prop) [Decidable p] [Decidable q],
      (p ↔ S n) → (q ↔ S i) →
      (let L := if q then splitChannels ids true h' (store m) else store m
       if p then splitChannels ids false h L else L).eval (if q then stepsSig h N ids x else x)
        = (if p then stepsSig h N ids ((store m).eval x) else (store m).eval x) ∧
      (let L := if p then splitChannels ids false h (store m) else store m
       if q then splitChannels ids true h' L else L).eval (if q then stepsSig h N ids x else x)
        = (if p then stepsSig h N ids ((store m).eval x) else (store m).eval x) := by
    intro h h' hh p q _ _ hp hq
    dsimp only
    by_cases hq' : q
    · obtain ⟨k1, k2⟩ := hr.sinks m (hsink.1 (hq.1 hq'))
      obtain ⟨a1, a2, a3⟩ := splitChannels_in_shape ids h' (store m)
      by_cases hp' : p
      · obtain ⟨_, k3⟩ := hr.srcs m (hsrc.1 (hp.1 hp'))
        obtain ⟨b1, b2, b3⟩ := splitChannels_out_shape ids h (store m)
        simp only [if_pos hp', if_pos hq']
        constructor
        · rw [splitOut_eval (a1.trans k1) h (by rw [a2, k3]; exact hids), a2, k3]
          have := splitIn_eval k1 hh (ids := ids) (by rw [k2]; exact hids) x
          rw [k2] at this
          rw [this]
        · have := splitIn_eval (L := splitChannels ids false h (store m)) (b1.trans k1) hh (ids := ids)
            (by rw [b2, k2]; exact hids) x
          rw [b2, k2] at this
          rw [this, splitOut_eval k1 h (by rw [k3]; exact hids), k3]
      · simp only [if_neg hp', if_pos hq']
        have := splitIn_eval k1 hh (ids := ids) (by rw [k2]; exact hids) x
        rw [k2] at this
        exact ⟨this, this⟩
    · simp only [if_neg hq']
      by_cases hp' : p
      · obtain ⟨k1, k3⟩ := hr.srcs m (hsrc.1 (hp.1 hp'))
        simp only [if_pos hp']
        rw [splitOut_eval k1 h (by rw [k3]; exact hids), k3]
        exact ⟨rfl, rfl⟩
      · simp only [if_neg hp', and_self]
  cases s
  · simp only [Bool.false_eq_true, if_false]
    have := (key (1 / 2) 1 (by norm_num) (m ∈ srcs) (m ∈ sinks) hsrc.symm hsink.symm).2
    dsimp only at this
    simp only [hsrc, hsink]
    exact this
  · simp only [if_true]
    have := (key 1 (1 / 2) (by norm_num) (m ∈ srcs) (m ∈ sinks) hsrc.symm hsink.symm).1
    dsimp only at this
    simp only [hsrc, hsink]
    exact this

theorem splitRegion_outputs {g : Graph K} (hg : NoMuls g) {srcs sinks : List ℕ} {S : ℕ → Prop}
    (hc : ClosedNames g srcs sinks S) {store : ℕ → Layer K} {N : ℕ} (hr : RegionOk store srcs sinks N) {ids : List ℕ}
    (hids : Valid N ids) (s : Bool) (hs : (∀ n k, (nodeAt g n).op = .add k → k = none) ∨ s = true)
    (inputs : ℕ → Signal K) : outputs (splitRegion srcs sinks ids s store) g inputs = outputs store g inputs := by
  refine outputs_tr hg hc (h := if s then 1 else 1 / 2) ?_ ?_ (splitRegion_layersOk hg hc hr hids s) inputs
  · cases s <;> simp
  · rcases hs with hs | hs
    · exact Or.inl hs
    · right
      rw [hs]
      simp

theorem splitRegion_other (srcs sinks : List ℕ) (h1 : srcs.Nodup) (h2 : sinks.Nodup) (ids : List ℕ) (s : Bool)
    (store : ℕ → Layer K) {a b : List ℕ} {N : ℕ} (hr : RegionOk store a b N) (ha : List.Disjoint srcs a)
    (hb : List.Disjoint sinks b) : RegionOk (splitRegion srcs sinks ids s store) a b N := by
  have hk : ∀ (p q : Prop) [Decidable p] [Decidable q] (f f' : K) (L : Layer K),
      (let L' := if p then splitChannels ids true f L else L
       if q then splitChannels ids false f' L' else L').kind = L.kind := by
    intro p q _ _ f f' L
    dsimp only
    split_ifs
    · rw [(splitChannels_out_shape _ _ _).1, (splitChannels_in_shape _ _ _).1]
    · rw [(splitChannels_out_shape _ _ _).1]
    · rw [(splitChannels_in_shape _ _ _).1]
    · rfl
  have hk2 : ∀ (p q : Prop) [Decidable p] [Decidable q] (f f' : K) (L : Layer K),
      (let L' := if p then splitChannels ids false f L else L
       if q then splitChannels ids true f' L' else L').kind = L.kind := by
    intro p q _ _ f f' L
    dsimp only
    split_ifs
    · rw [(splitChannels_in_shape _ _ _).1, (splitChannels_out_shape _ _ _).1]
    · rw [(splitChannels_in_shape _ _ _).1]
    · rw [(splitChannels_out_shape _ _ _).1]
    · rfl
  constructor
  · intro m hm
    obtain ⟨k1, k2⟩ := hr.srcs m hm
    have hns : m ∉ srcs := fun h => ha h hm
    rw [splitRegion_apply srcs sinks h1 h2]
    cases s
    · simp only [Bool.false_eq_true, if_false]
      refine ⟨(hk2 _ _ _ _ _).trans k1, ?_⟩
      simp only [if_neg hns]
      split_ifs
      · rw [(splitChannels_in_shape _ _ _).2.1, k2]
      · exact k2
    · simp only [if_true]
      refine ⟨(hk _ _ _ _ _).trans k1, ?_⟩
      simp only [if_neg hns]
      split_ifs
      · rw [(splitChannels_in_shape _ _ _).2.1, k2]
      · exact k2
  · intro m hm
    obtain ⟨k1, k2⟩ := hr.sinks m hm
    have hns : m ∉ sinks := fun h => hb h hm
    rw [splitRegion_apply srcs sinks h1 h2]
    cases s
    · simp only [Bool.false_eq_true, if_false]
      refine ⟨(hk2 _ _ _ _ _).trans k1, ?_⟩
      simp only [if_neg hns]
      split_ifs
      · rw [(splitChannels_out_shape _ _ _).2.1, k2]
      · exact k2
    · simp only [if_true]
      refine ⟨(hk _ _ _ _ _).trans k1, ?_⟩
      simp only [if_neg hns]
      split_ifs
      · rw [(splitChannels_out_shape _ _ _).2.1, k2]
      · exact k2

/-! ## Which regions are kept -/

theorem isSupported_spec {store : ℕ → Layer K} {srcs sinks : List ℕ} (h : isSupported store srcs sinks = true) :
    (∃ N, RegionOk store srcs sinks N) ∧ (srcs ≠ [] → sinks ≠ []) := by
  unfold isSupported at h
  by_cases h1 : ((srcs ++ sinks).any fun m => unsupportedKind (store m)) = true
  · rw [if_pos h1] at h
    cases h
  · rw [if_neg h1] at h
    dsimp only at h
    by_cases h2 : (srcs.map fun m => (store m).outCh).dedup.length > 1
    · rw [if_pos h2] at h
      cases h
    · rw [if_neg h2] at h
      by_cases h3 : (sinks.map fun m => (store m).inCh).dedup.length > 1
      · rw [if_pos h3] at h
        cases h
      · rw [if_neg h3, beq_iff_eq] at h
        have hk : ∀ m ∈ srcs ++ sinks, (store m).kind = .dense := by
          intro m hm
          by_contra hcon
          apply h1
          rw [List.any_eq_true]
          refine ⟨m, hm, ?_⟩
          unfold unsupportedKind
          cases hkd : (store m).kind <;> simp_all
        cases hd : (srcs.map fun m => (store m).outCh).dedup with
        | nil =>
          rw [hd] at h
          have e1 : srcs = [] := by
            rw [← List.map_eq_nil_iff (f := fun m => (store m).outCh)]
            exact List.dedup_eq_nil _ |>.1 hd
          have e2 : sinks = [] := by
            rw [← List.map_eq_nil_iff (f := fun m => (store m).inCh)]
            exact List.dedup_eq_nil _ |>.1 h.symm
          subst e1 e2
          exact ⟨⟨0, by simp, by simp⟩, fun h => h⟩
        | cons N l =>
          have hl : l = [] := by
            rw [hd] at h2
            simp only [List.length_cons] at h2
            exact List.eq_nil_of_length_eq_zero (by omega)
          subst hl
          rw [hd] at h
          refine ⟨⟨N, ?_, ?_⟩, ?_⟩
          · intro m hm
            refine ⟨hk m (by simp [hm]), ?_⟩
            have : (store m).outCh ∈ (srcs.map fun m => (store m).outCh).dedup :=
              List.mem_dedup.2 (List.mem_map.2 ⟨m, hm, rfl⟩)
            rw [hd] at this
            simpa using this
          · intro m hm
            refine ⟨hk m (by simp [hm]), ?_⟩
            have : (store m).inCh ∈ (sinks.map fun m => (store m).inCh).dedup :=
              List.mem_dedup.2 (List.mem_map.2 ⟨m, hm, rfl⟩)
            rw [← h] at this
            simpa using this
          · rintro _ rfl
            simp at h

/-- What `_clean_regions` knows after a list of regions. -/
structure CleanInv (store : ℕ → Layer K) (seen : List ((List ℕ × List ℕ) × ℕ)) (st : CleanState) : Prop where
  src : ∀ ir ∈ seen, ∀ m ∈ ir.1.1, ir.2 ∈ st.sourceModules m
  sink : ∀ ir ∈ seen, ∀ m ∈ ir.1.2, ir.2 ∈ st.sinkModules m
  sharedSrc : ∀ m i j, i ∈ st.sourceModules m → j ∈ st.sourceModules m → i ≠ j → i ∈ st.toDel
  sharedSink : ∀ m i j, i ∈ st.sinkModules m → j ∈ st.sinkModules m → i ≠ j → i ∈ st.toDel
  unsupported : ∀ ir ∈ seen, isSupported store ir.1.1 ir.1.2 = false → ir.2 ∈ st.toDel

theorem cleanSrc_fold (i : ℕ) (l : List ℕ) (st : CleanState)
    (h : ∀ m a b, a ∈ st.sourceModules m → b ∈ st.sourceModules m → a ≠ b → a ∈ st.toDel) :
    let st' := l.foldl (cleanSrc i) st
    (∀ m a b, a ∈ st'.sourceModules m → b ∈ st'.sourceModules m → a ≠ b → a ∈ st'.toDel) ∧
    (∀ m a, a ∈ st.sourceModules m → a ∈ st'.sourceModules m) ∧ (∀ m ∈ l, i ∈ st'.sourceModules m) ∧
    st'.sinkModules = st.sinkModules ∧ (∀ a ∈ st.toDel, a ∈ st'.toDel) := by
  induction l generalizing st with
  | nil => exact ⟨h, fun _ _ h => h, by simp, rfl, fun _ h => h⟩
  | cons m0 l ih =>
    dsimp only
    rw [List.foldl_cons]
    have hsm : (cleanSrc i st m0).sourceModules = Function.update st.sourceModules m0 (st.sourceModules m0 ++ [i]) := by
      unfold cleanSrc
      dsimp only
      split_ifs <;> rfl
    have hsk : (cleanSrc i st m0).sinkModules = st.sinkModules := by
      unfold cleanSrc
      dsimp only
      split_ifs <;> rfl
    have hdel : ∀ a ∈ st.toDel, a ∈ (cleanSrc i st m0).toDel := by
      intro a ha
      unfold cleanSrc
      dsimp only
      split_ifs
      · exact ha
      · exact List.mem_append_left _ ha
    have h' : ∀ m a b, a ∈ (cleanSrc i st m0).sourceModules m → b ∈ (cleanSrc i st m0).sourceModules m → a ≠ b →
        a ∈ (cleanSrc i st m0).toDel := by
      intro m a b ha hb hab
      rw [hsm] at ha hb
      by_cases hm : m = m0
      · subst hm
        rw [Function.update_self] at ha hb
        have hne : ¬ (st.sourceModules m).isEmpty = true := by
          intro he
          rw [List.isEmpty_iff] at he
          rw [he] at ha hb
          simp only [List.nil_append, List.mem_singleton] at ha hb
          exact hab (ha.trans hb.symm)
        unfold cleanSrc
        dsimp only
        rw [if_neg hne]
        exact List.mem_append_right _ ha
      · rw [Function.update_of_ne hm] at ha hb
        exact hdel a (h m a b ha hb hab)
    obtain ⟨i1, i2, i3, i4, i5⟩ := ih (cleanSrc i st m0) h'
    have hmono : ∀ m a, a ∈ st.sourceModules m → a ∈ (cleanSrc i st m0).sourceModules m := by
      intro m a ha
      rw [hsm]
      by_cases hm : m = m0
      · subst hm
        rw [Function.update_self]
        exact List.mem_append_left _ ha
      · rw [Function.update_of_ne hm]
        exact ha
    refine ⟨i1, fun m a ha => i2 m a (hmono m a ha), ?_, i4.trans hsk, fun a ha => i5 a (hdel a ha)⟩
    intro m hm
    rcases List.mem_cons.1 hm with rfl | hm
    · apply i2
      rw [hsm, Function.update_self]
      simp
    · exact i3 m hm

theorem cleanSink_fold (i : ℕ) (l : List ℕ) (st : CleanState)
    (h : ∀ m a b, a ∈ st.sinkModules m → b ∈ st.sinkModules m → a ≠ b → a ∈ st.toDel) :
    let st' := l.foldl (cleanSink i) st
    (∀ m a b, a ∈ st'.sinkModules m → b ∈ st'.sinkModules m → a ≠ b → a ∈ st'.toDel) ∧
    (∀ m a, a ∈ st.sinkModules m → a ∈ st'.sinkModules m) ∧ (∀ m ∈ l, i ∈ st'.sinkModules m) ∧
    st'.sourceModules = st.sourceModules ∧ (∀ a ∈ st.toDel, a ∈ st'.toDel) := by
  induction l generalizing st with
  | nil => exact ⟨h, fun _ _ h => h, by simp, rfl, fun _ h => h⟩
  | cons m0 l ih =>
    dsimp only
    rw [List.foldl_cons]
    have hsm : (cleanSink i st m0).sinkModules = Function.update st.sinkModules m0 (st.sinkModules m0 ++ [i]) := by
      unfold cleanSink
      dsimp only
      split_ifs <;> rfl
    have hsk : (cleanSink i st m0).sourceModules = st.sourceModules := by
      unfold cleanSink
      dsimp only
      split_ifs <;> rfl
    have hdel : ∀ a ∈ st.toDel, a ∈ (cleanSink i st m0).toDel := by
      intro a ha
      unfold cleanSink
      dsimp only
      split_ifs
      · exact ha
      · exact List.mem_append_left _ ha
    have h' : ∀ m a b, a ∈ (cleanSink i st m0).sinkModules m → b ∈ (cleanSink i st m0).sinkModules m → a ≠ b →
        a ∈ (cleanSink i st m0).toDel := by
      intro m a b ha hb hab
      rw [hsm] at ha hb
      by_cases hm : m = m0
      · subst hm
        rw [Function.update_self] at ha hb
        have hne : ¬ (st.sinkModules m).isEmpty = true := by
          intro he
          rw [List.isEmpty_iff] at he
          rw [he] at ha hb
          simp only [List.nil_append, List.mem_singleton] at ha hb
          exact hab (ha.trans hb.symm)
        unfold cleanSink
        dsimp only
        rw [if_neg hne]
        exact List.mem_append_right _ ha
      · rw [Function.update_of_ne hm] at ha hb
        exact hdel a (h m a b ha hb hab)
    obtain ⟨i1, i2, i3, i4, i5⟩ := ih (cleanSink i st m0) h'
    have hmono : ∀ m a, a ∈ st.sinkModules m → a ∈ (cleanSink i st m0).sinkModules m := by
      intro m a ha
      rw [hsm]
      by_cases hm : m = m0
      · subst hm
        rw [Function.update_self]
        exact List.mem_append_left _ ha
      · rw [Function.update_of_ne hm]
        exact ha
    refine ⟨i1, fun m a ha => i2 m a (hmono m a ha), ?_, i4.trans hsk, fun a ha => i5 a (hdel a ha)⟩
    intro m hm
    rcases List.mem_cons.1 hm with rfl | hm
    · apply i2
      rw [hsm, Function.update_self]
      simp
    · exact i3 m hm

theorem cleanStep_inv {store : ℕ → Layer K} {seen : List ((List ℕ × List ℕ) × ℕ)} {st : CleanState}
    (h : CleanInv store seen st) (ir : (List ℕ × List ℕ) × ℕ) : CleanInv store (seen ++ [ir]) (cleanStep store st ir) := by
  obtain ⟨a1, a2, a3, a4, a5⟩ := cleanSrc_fold ir.2 ir.1.1 st h.sharedSrc
  obtain ⟨st1, hst1⟩ : ∃ s, s = ir.1.1.foldl (cleanSrc ir.2) st := ⟨_, rfl⟩
  rw [← hst1] at a1 a2 a3 a4 a5
  obtain ⟨b1, b2, b3, b4, b5⟩ := cleanSink_fold ir.2 ir.1.2 st1 (by
    intro m a b ha hb hab
    rw [a4] at ha hb
    exact a5 a (h.sharedSink m a b ha hb hab))
  obtain ⟨st2, hst2⟩ : ∃ s, s = ir.1.2.foldl (cleanSink ir.2) st1 := ⟨_, rfl⟩
  rw [← hst2] at b1 b2 b3 b4 b5
  have hstep : cleanStep store st ir = if isSupported store ir.1.1 ir.1.2 then st2 else
      { st2 with toDel := st2.toDel ++ [ir.2] } := by
    rw [hst2, hst1]
    rfl
  have e1 : (cleanStep store st ir).sourceModules = st1.sourceModules := by
    rw [hstep, ← b4]
    split_ifs <;> rfl
  have e2 : (cleanStep store st ir).sinkModules = st2.sinkModules := by
    rw [hstep]
    split_ifs <;> rfl
  have e3 : ∀ a ∈ st2.toDel, a ∈ (cleanStep store st ir).toDel := by
    intro a ha
    rw [hstep]
    split_ifs
    · exact ha
    · exact List.mem_append_left _ ha
  refine ⟨?_, ?_, ?_, ?_, ?_⟩
  · intro ir' hir m hm
    rw [e1]
    rcases List.mem_append.1 hir with hir | hir
    · exact a2 m _ (h.src ir' hir m hm)
    · rw [List.mem_singleton] at hir
      subst hir
      exact a3 m hm
  · intro ir' hir m hm
    rw [e2]
    rcases List.mem_append.1 hir with hir | hir
    · apply b2
      rw [a4]
      exact h.sink ir' hir m hm
    · rw [List.mem_singleton] at hir
      subst hir
      exact b3 m hm
  · intro m a b ha hb hab
    rw [e1] at ha hb
    exact e3 a (b5 a (a1 m a b ha hb hab))
  · intro m a b ha hb hab
    rw [e2] at ha hb
    exact e3 a (b1 m a b ha hb hab)
  · intro ir' hir hu
    rcases List.mem_append.1 hir with hir | hir
    · exact e3 _ (b5 _ (a5 _ (h.unsupported ir' hir hu)))
    · rw [List.mem_singleton] at hir
      subst hir
      rw [hstep, if_neg (by rw [hu]; simp)]
      simp

theorem cleanFold_inv {store : ℕ → Layer K} (l : List ((List ℕ × List ℕ) × ℕ)) :
    ∀ {seen : List ((List ℕ × List ℕ) × ℕ)} {st : CleanState}, CleanInv store seen st →
      CleanInv store (seen ++ l) (l.foldl (cleanStep store) st) := by
  induction l with
  | nil => intro seen st h; simpa using h
  | cons a l ih =>
    intro seen st h
    have := ih (cleanStep_inv h a)
    rw [List.append_assoc] at this
    exact this

theorem cleanRegions_spec (store : ℕ → Layer K) (regions : List (List ℕ × List ℕ)) :
    (∀ r ∈ cleanRegions store regions, r ∈ regions ∧ isSupported store r.1 r.2 = true) ∧
    (cleanRegions store regions).Pairwise fun a b => List.Disjoint a.1 b.1 ∧ List.Disjoint a.2 b.2 := by
  have hinv : CleanInv store (regions.zipIdx) (regions.zipIdx.foldl (cleanStep store) {}) := by
    have := cleanFold_inv (store := store) regions.zipIdx (seen := []) (st := {})
      ⟨by simp, by simp, by simp, by simp, by simp⟩
    simpa using this
  unfold cleanRegions
  dsimp only
  generalize regions.zipIdx.foldl (cleanStep store) {} = st at hinv
  constructor
  · intro r hr
    obtain ⟨ir, h1, rfl⟩ := List.mem_map.1 hr
    obtain ⟨h2, h3⟩ := List.mem_filter.1 h1
    refine ⟨List.fst_mem_of_mem_zipIdx h2, ?_⟩
    by_contra hcon
    have := hinv.unsupported ir h2 (by simpa using hcon)
    simp [this] at h3
  · rw [List.pairwise_map]
    have hp : regions.zipIdx.Pairwise fun a b => a.2 ≠ b.2 := by
      have h1 : (regions.zipIdx.map Prod.snd).Nodup := by
        rw [List.zipIdx_map_snd]
        exact List.nodup_range'
      exact List.pairwise_map.1 h1
    apply List.Pairwise.imp_of_mem _ (hp.filter _)
    intro a b ha hb hab
    obtain ⟨ha1, ha2⟩ := List.mem_filter.1 ha
    obtain ⟨hb1, hb2⟩ := List.mem_filter.1 hb
    constructor
    · intro m hm hm'
      have := hinv.sharedSrc m a.2 b.2 (hinv.src a ha1 m hm) (hinv.src b hb1 m hm') hab
      simp [this] at ha2
    · intro m hm hm'
      have := hinv.sharedSink m a.2 b.2 (hinv.sink a ha1 m hm) (hinv.sink b hb1 m hm') hab
      simp [this] at ha2

/-! ## The channels to split -/

theorem mem_argsortDesc {v : List K} {i : ℕ} : i ∈ argsortDesc v ↔ i < v.length := by
  unfold argsortDesc
  rw [(List.perm_insertionSort _ _).mem_iff, List.mem_range]

theorem channelsToSplit_valid {store : ℕ → Layer K} {srcs sinks : List ℕ} {N : ℕ} (hr : RegionOk store srcs sinks N)
    {ratio : K} {s : Bool} {ids : List ℕ} (h : channelsToSplit store srcs sinks ratio s = some ids) :
    ∀ id ∈ ids, id < N := by
  unfold channelsToSplit at h
  dsimp only at h
  have hlen : ∀ m ∈ (if s then sinks else srcs), (maxPerChannel s (store m)).length = N := by
    intro m hm
    unfold maxPerChannel
    cases s
    · simp only [Bool.false_eq_true, if_false] at hm ⊢
      rw [List.length_map, List.length_range, (hr.srcs m hm).2]
    · simp only [if_true] at hm ⊢
      rw [List.length_map, List.length_range, (hr.sinks m hm).2]
  generalize (if s then sinks else srcs) = modules at h hlen
  cases modules with
  | nil => cases h
  | cons a l =>
    simp only [Option.some.injEq] at h
    subst h
    intro id hid
    rw [(List.perm_insertionSort _ _).mem_iff, List.mem_dedup, List.mem_flatMap] at hid
    obtain ⟨m, hm, hid⟩ := hid
    have : id ∈ argsortDesc (maxPerChannel s (store m)) := by
      split_ifs at hid <;> exact List.mem_of_mem_take hid
    rw [mem_argsortDesc, hlen m hm] at this
    exact this

theorem splitAll_outputs {g : Graph K} (hg : NoMuls g) (ratio : K) (s : Bool)
    (hs : (∀ n k, (nodeAt g n).op = .add k → k = none) ∨ s = true) (regions : List (List ℕ × List ℕ))
    (hpw : regions.Pairwise fun a b => List.Disjoint a.1 b.1 ∧ List.Disjoint a.2 b.2)
    (hcl : ∀ r ∈ regions, ∃ S, ClosedNames g r.1 r.2 S) (hne : ∀ r ∈ regions, r.1 ≠ [] ∧ r.2 ≠ []) :
    ∀ store : ℕ → Layer K, (∀ r ∈ regions, ∃ N, RegionOk store r.1 r.2 N) →
      ∃ store', regions.foldlM (splitOne ratio s) store = some store' ∧
        ∀ inputs, outputs store' g inputs = outputs store g inputs := by
  induction regions with
  | nil => intro store _; exact ⟨store, rfl, fun _ => rfl⟩
  | cons r l ih =>
    intro store hok
    rw [List.pairwise_cons] at hpw
    obtain ⟨S, hS⟩ := hcl r (by simp)
    obtain ⟨N, hN⟩ := hok r (by simp)
    have hsome : ∃ ids, channelsToSplit store r.1 r.2 ratio s = some ids := by
      obtain ⟨h1, h2⟩ := hne r (by simp)
      unfold channelsToSplit
      dsimp only
      have : (if s then r.2 else r.1) ≠ [] := by cases s <;> simp [h1, h2]
      generalize (if s then r.2 else r.1) = modules at this
      cases modules with
      | nil => exact absurd rfl this
      | cons a t => exact ⟨_, rfl⟩
    obtain ⟨ids, hids⟩ := hsome
    have hv := valid_of_lt (channelsToSplit_valid hN hids)
    obtain ⟨store', h1, h2⟩ := ih hpw.2 (fun r' h => hcl r' (by simp [h])) (fun r' h => hne r' (by simp [h]))
      (splitRegion r.1 r.2 ids s store) (by
        intro r' hr'
        obtain ⟨N', hN'⟩ := hok r' (by simp [hr'])
        exact ⟨N', splitRegion_other _ _ hS.srcsNodup hS.sinksNodup _ _ _ hN' (hpw.1 r' hr').1 (hpw.1 r' hr').2⟩)
    refine ⟨store', ?_, ?_⟩
    · rw [List.foldlM_cons]
      unfold splitOne
      rw [hids]
      exact h1
    · intro inputs
      rw [h2, splitRegion_outputs hg hS hN hv s hs]

end Brevitas.ChannelSplit
