import Verif.Props.ChannelSplit
import Verif.Props.EqualizeCat
import Verif.Spec.ConcatShapes
import Mathlib.Tactic.IntervalCases

/-!
# C45: channel splitting in networks with concatenations
-/

set_option linter.unusedSectionVars false

namespace Brevitas.Props

open Net Equalize ChannelSplit

variable {K : Type*} [Field K] [LinearOrder K] [IsStrictOrderedRing K] [FloorRing K]

/-- Nothing unknown feeds a closed set, and the layer that feeds a branch in it is one of the sources. -/
theorem branch_source {g : Graph K} {store : ℕ → Layer K} {part : ℕ → ℕ} {r : Region} {S : ℕ → Prop} {O : ℕ → ℕ} (hc : ClosedAt g store part r S O) {u : ℕ} {w : Option ℕ}
    (hb : Branch g store u w) (hu : S u) : ∃ m ∈ r.srcs.map Prod.fst, w = some (store m).outCh := by
  induction hb with
  | layer n m h =>
    have := hc.own n hu
    rw [h] at this
    exact ⟨m, List.mem_map.2 ⟨_, this, rfl⟩, rfl⟩
  | act n i a w h hi _ ih =>
    have := hc.own n hu
    rw [h] at this
    exact ih (this i (by rw [hi]; simp))
  | input n k h =>
    have := hc.own n hu
    rw [h] at this
    exact this.elim
  | other n f h =>
    have := hc.own n hu
    rw [h] at this
    exact this.elim

/-- Readers of a closed set. -/
theorem reads_closed {g : Graph K} {store : ℕ → Layer K} {part : ℕ → ℕ} {r : Region} {S : ℕ → Prop} {O : ℕ → ℕ} (hc : ClosedAt g store part r S O) {c v : ℕ} (hS : S c)
    (hr : Reads g c v) :
    match (nodeAt g v).op with
    | .module m => m ∈ r.sinks.map Prod.fst
    | .act _ | .add _ | .cat _ => S v
    | _ => False := by
  have step : ∀ n v, S n → v < g.length → n ∈ (nodeAt g v).ins → match (nodeAt g v).op with
    | .module m => m ∈ r.sinks.map Prod.fst
    | .act _ | .add _ | .cat _ => S v
    | _ => False := by
    intro n v hn hv hin
    have := hc.user n v hn hv hin
    cases hop : (nodeAt g v).op <;> rw [hop] at this <;> dsimp only at this ⊢
    · exact List.mem_map.2 ⟨_, this, rfl⟩
    · exact this
    · exact this
    · exact this
  induction hr with
  | direct v hv h => exact step c v hS hv h
  | through u v _ hop hv h ih =>
    apply step u v _ hv h
    rcases hop with ⟨a, ha⟩ | ⟨k, hk⟩
    · rw [ha] at ih; exact ih
    · rw [hk] at ih; exact ih

theorem sum_eq_mul {N : ℕ} {s : List ℕ} (h : ∀ k ∈ s, k = N) : s.sum = s.length * N := by
  induction s with
  | nil => simp
  | cons a s ih =>
    rw [List.sum_cons, ih (fun k hk => h k (List.mem_cons_of_mem _ hk)), h a (by simp), List.length_cons, Nat.succ_mul, Nat.add_comm]

/-- A region whose layers have matching numbers of channels contains no concatenation. -/
theorem supported_noCat {g : Graph K} {store : ℕ → Layer K} {part : ℕ → ℕ} {r : Region} {S : ℕ → Prop} {O : ℕ → ℕ} (hg : Concats g store part) (hs : CatShapes g store)
    (hc : ClosedAt g store part r S O) {N : ℕ} (hok : RegionOk store (r.srcs.map Prod.fst) (r.sinks.map Prod.fst) N) {c : ℕ} {s : List ℕ} (hop : (nodeAt g c).op = .cat s) :
    ¬ S c := by
  intro hS
  have hown := hc.own c hS
  rw [hop] at hown
  obtain ⟨hins, -, -⟩ := hown
  have hall : ∀ k ∈ s, k = N := by
    have hb := hg.branch c s hop
    clear hop
    generalize (nodeAt g c).ins = ins at hb hins
    induction hb with
    | nil => simp
    | cons h _ ih =>
      rename_i u n us ns _
      intro k hk
      rcases List.mem_cons.1 hk with rfl | hk
      · rcases h.1 with h | h
        · obtain ⟨m, hm, he⟩ := branch_source hc h (hins u (by simp))
          rw [Option.some.inj he]
          exact (hok.srcs m hm).2
        · obtain ⟨m, -, he⟩ := branch_source hc h (hins u (by simp))
          cases he
      · exact ih (fun i hi => hins i (List.mem_cons_of_mem _ hi)) k hk
  obtain ⟨hlen, hpos⟩ := hs.many c s hop
  obtain ⟨v, hr, hv⟩ := hs.used c s hop
  have hcl := reads_closed hc hS hr
  cases hvo : (nodeAt g v).op with
  | module m =>
    rw [hvo] at hcl
    have h1 := (hok.sinks m hcl).2
    rw [hs.shape c s v m hop hr hvo, sum_eq_mul hall] at h1
    cases s with
    | nil => simp at hlen
    | cons a t =>
      have hN : 0 < N := by
        rw [← hall a (by simp)]
        exact hpos a (by simp)
      have h2 : 2 * N ≤ (a :: t).length * N := Nat.mul_le_mul_right _ hlen
      omega
  | other f => rw [hvo] at hcl; exact hcl
  | output => rw [hvo] at hcl; exact hcl
  | input k => rw [hvo] at hv; exact hv
  | act a => rw [hvo] at hv; exact hv
  | add k => rw [hvo] at hv; exact hv
  | mul => rw [hvo] at hv; exact hv
  | cat s' => rw [hvo] at hv; exact hv

theorem closedNames_of_at {g : Graph K} {store : ℕ → Layer K} {part : ℕ → ℕ} {r : Region} {S : ℕ → Prop} {O : ℕ → ℕ} (hg : Concats g store part)
    (hc : ClosedAt g store part r S O) (hno : ∀ c s, (nodeAt g c).op = .cat s → ¬ S c) : ClosedNames g (r.srcs.map Prod.fst) (r.sinks.map Prod.fst) S := by
  refine ⟨?_, ?_, ?_, ?_, ?_, ?_⟩
  · intro n hn
    have := hc.own n hn
    cases hop : (nodeAt g n).op <;> rw [hop] at this <;> dsimp only at this ⊢
    · exact List.mem_map.2 ⟨_, this, rfl⟩
    · exact this
    · exact this
    · exact hno n _ hop hn
  · intro n v hn hv hin
    have := hc.user n v hn hv hin
    cases hop : (nodeAt g v).op <;> rw [hop] at this <;> dsimp only at this ⊢
    · exact List.mem_map.2 ⟨_, this, rfl⟩
    · exact this
    · exact this
    · exact hno v _ hop this
  · intro m hm
    obtain ⟨⟨m', ix⟩, h1, rfl⟩ := List.mem_map.1 hm
    obtain ⟨n, h2, h3, -⟩ := hc.src _ _ h1
    exact ⟨n, h2, h3⟩
  · intro m hm
    obtain ⟨⟨m', ix⟩, h1, rfl⟩ := List.mem_map.1 hm
    obtain ⟨-, n, u, h2, h3, h4, -⟩ := hc.sink _ _ h1
    exact ⟨n, u, h2, h3, h4⟩
  · apply List.Nodup.map_on _ hc.srcsNodup
    rintro ⟨m, ix⟩ h1 ⟨m', ix'⟩ h2 he
    obtain rfl : m = m' := he
    obtain ⟨n, a1, a2, rfl⟩ := hc.src _ _ h1
    obtain ⟨n', b1, b2, rfl⟩ := hc.src _ _ h2
    rw [hg.once n n' m a1 b1]
  · apply List.Nodup.map_on _ hc.sinksNodup
    rintro ⟨m, ix⟩ h1 ⟨m', ix'⟩ h2 he
    obtain rfl : m = m' := he
    obtain ⟨-, n, u, a1, a2, a3, rfl⟩ := hc.sink _ _ h1
    obtain ⟨-, n', u', b1, b2, b3, rfl⟩ := hc.sink _ _ h2
    obtain rfl := hg.once n n' m a1 b1
    obtain ⟨i, hi⟩ := hg.unary n (lt_of_op (by rw [a1]; simp)) (by rw [a1]; simp) (by rw [a1]; simp) (by rw [a1]; simp)
    rw [hi, List.mem_singleton] at a2 b2
    rw [a2, b2]

/-- Every region found has a sink. -/
theorem extract_sinks {g : Graph K} {store : ℕ → Layer K} {regions : List Region} (h : extractRegions g store = some regions) : ∀ r ∈ regions, r.sinks ≠ [] := by
  have key : ∀ (l : List ℕ) (rs : List Region), l.foldlM (extractStep g store) rs = some regions → (∀ r ∈ rs, r.sinks ≠ []) → ∀ r ∈ regions, r.sinks ≠ [] := by
    intro l
    induction l with
    | nil =>
      intro rs h hrs
      rw [List.foldlM_nil] at h
      cases h
      exact hrs
    | cons n l ih =>
      intro rs h hrs
      rw [List.foldlM_cons] at h
      obtain ⟨rs', h1, h2⟩ := Option.bind_eq_some_iff.1 h
      refine ih rs' h2 ?_
      unfold extractStep at h1
      cases hop : (nodeAt g n).op with
      | module m =>
        rw [hop] at h1
        dsimp only at h1
        cases hr : regionOf g store n m with
        | none => rw [hr] at h1; cases h1
        | some res =>
          rw [hr] at h1
          cases res with
          | none => cases h1; exact hrs
          | some r =>
            have hne : r.sinks ≠ [] := by
              unfold regionOf at hr
              obtain ⟨st, -, h4⟩ := Option.bind_eq_some_iff.1 hr
              by_cases hu : (st.sinks.isEmpty || st.unsupported) = true
              · rw [if_pos hu] at h4
                cases h4
              · rw [if_neg hu] at h4
                cases h4
                intro he
                apply hu
                simp only at he
                simp [he]
            have h5 : (if (rs.any fun r' => sameRegion r r') then rs else rs ++ [r]) = rs' ∨ rs' = rs ∨ rs' = rs ++ [r] := by
              right
              dsimp only [Option.bind_eq_bind, Option.bind_some, pure] at h1
              split_ifs at h1
              · exact Or.inl (Option.some.inj h1).symm
              · exact Or.inr (Option.some.inj h1).symm
            have h6 : rs' = rs ∨ rs' = rs ++ [r] := by
              rcases h5 with h5 | h5
              · rw [← h5]
                split_ifs
                · exact Or.inl rfl
                · exact Or.inr rfl
              · exact h5
            rcases h6 with rfl | rfl
            · exact hrs
            · intro r' hr'
              rw [List.mem_append, List.mem_singleton] at hr'
              rcases hr' with hr' | rfl
              · exact hrs r' hr'
              · exact hne
      | _ =>
        rw [hop] at h1
        cases h1
        exact hrs
  exact key _ _ h (by simp)

theorem supported_srcs {store : ℕ → Layer K} {srcs sinks : List ℕ} (h : isSupported store srcs sinks = true) (hs : sinks ≠ []) : srcs ≠ [] := by
  rintro rfl
  unfold isSupported at h
  dsimp only at h
  split_ifs at h
  rw [beq_iff_eq] at h
  have := List.dedup_eq_nil _ |>.1 h.symm
  rw [List.map_eq_nil_iff] at this
  exact hs this

/-- C45, networks with concatenations: finding the regions, dropping the ones that cannot be split (those with a concatenation among them, whose layers have different numbers
of channels) and splitting the others never fails and leaves what the network computes unchanged, for any ratio and both modes, on every input and for all weights and
biases.
Missing: products, layers used at several places and constants, where the code can be wrong (see `Props/ChannelSplit`), sums inside the operands of concatenations and
operands that are next to two concatenations. -/
theorem C45_concatenations_partial (g : Graph K) (store : ℕ → Layer K) (part : ℕ → ℕ) (hg : Concats g store part) (hs : CatShapes g store) (ratio : K) (splitInput : Bool) :
    ∃ store', channelSplitting ratio splitInput g store = some store' ∧
      ∀ inputs, outputs store' g inputs = outputs store g inputs := by
  obtain ⟨regions, h1, h2⟩ := extractRegions_cat_spec hg
  unfold channelSplitting
  rw [h1]
  dsimp only
  obtain ⟨c1, c2⟩ := cleanRegions_spec store (regions.map fun r => (r.srcs.map Prod.fst, r.sinks.map Prod.fst))
  have hcl : ∀ r ∈ cleanRegions store (regions.map fun r => (r.srcs.map Prod.fst, r.sinks.map Prod.fst)),
      (∃ S, ClosedNames g r.1 r.2 S) ∧ r.1 ≠ [] := by
    intro r hr
    obtain ⟨r0, hr0, rfl⟩ := List.mem_map.1 (c1 r hr).1
    obtain ⟨S, O, hS⟩ := h2 r0 hr0
    obtain ⟨N, hN⟩ := (isSupported_spec (c1 _ hr).2).1
    refine ⟨⟨S, closedNames_of_at hg hS fun c s hop => supported_noCat hg hs hS hN hop⟩, ?_⟩
    dsimp only
    exact supported_srcs (c1 _ hr).2 (by
      rw [ne_eq, List.map_eq_nil_iff]
      exact extract_sinks h1 r0 hr0)
  exact splitAll_outputs ⟨hg.unary, hg.noMul, hg.once⟩ ratio splitInput (Or.inl hg.noConst) _ c2 (fun r hr => (hcl r hr).1)
    (fun r hr => ⟨(hcl r hr).2, (isSupported_spec (c1 r hr).2).2 (hcl r hr).2⟩) store
    (fun r hr => (isSupported_spec (c1 r hr).2).1)

/-- Two branches are concatenated and go through two layers with two channels between them: `layer3 (relu (layer2 [relu (layer0 x), layer1 x]))`. -/
def catSplitNet : Graph ℚ :=
  [⟨.input 0, []⟩, ⟨.module 0, [0]⟩, ⟨.act (.leaky 0), [1]⟩, ⟨.module 1, [0]⟩, ⟨.cat [1, 1], [2, 3]⟩, ⟨.module 2, [4]⟩, ⟨.act (.leaky 0), [5]⟩, ⟨.module 3, [6]⟩, ⟨.output, [7]⟩]

def catSplitStore : ℕ → Layer ℚ := fun m =>
  if m = 2 then ⟨.dense, 2, 2, 1, fun o i _ => if o = i then 3 else -1, some fun _ => 1, fun p _ => some p, id⟩
  else if m = 3 then ⟨.dense, 1, 2, 1, fun _ i _ => if i = 0 then 7 else 2, none, fun p _ => some p, id⟩
  else ⟨.dense, 1, 1, 1, fun _ _ _ => 4, none, fun p _ => some p, id⟩

/-- The parts of `catSplitNet`. -/
def catSplitPart : ℕ → ℕ := fun n => [0, 1, 1, 2, 3, 4, 4, 5, 6].getD n 7

theorem catSplitNet_default {n : ℕ} (hn : 9 ≤ n) : nodeAt catSplitNet n = ⟨.output, []⟩ := by
  rw [nodeAt, List.getD_eq_default _ _ (by simpa [catSplitNet] using hn)]

theorem catSplitNet_cats : ∀ c s, (nodeAt catSplitNet c).op = .cat s → c = 4 ∧ s = [1, 1] := by
  intro c s h
  rcases Nat.lt_or_ge c 9 with hn | hn
  · interval_cases c <;> simp [catSplitNet, nodeAt] at h
    exact ⟨rfl, h.symm⟩
  · rw [catSplitNet_default hn] at h
    cases h

theorem concats_catSplitNet : Concats catSplitNet catSplitStore catSplitPart := by
  have dflt : ∀ {n : ℕ} {P : Prop}, (n < 9 → P) → (9 ≤ n → P) → P := fun h1 h2 => (Nat.lt_or_ge _ 9).elim h1 h2
  have cats := catSplitNet_cats
  refine ⟨?_, ?_, ?_, ?_, ?_, ?_, ?_, ?_, ?_⟩
  · intro n i hi
    refine dflt (n := n) (fun hn => ?_) (fun hn => ?_)
    · interval_cases n <;> simp [catSplitNet, nodeAt] at hi <;> omega
    · rw [catSplitNet_default hn] at hi
      simp at hi
  · intro n hn h1 h2 h3
    simp only [catSplitNet, List.length_cons, List.length_nil] at hn
    interval_cases n
    · exact absurd rfl (h2 0)
    · exact ⟨0, rfl⟩
    · exact ⟨1, rfl⟩
    · exact ⟨0, rfl⟩
    · exact absurd rfl (h3 [1, 1])
    · exact ⟨4, rfl⟩
    · exact ⟨5, rfl⟩
    · exact ⟨6, rfl⟩
    · exact ⟨7, rfl⟩
  · intro n h
    refine dflt (n := n) (fun hn => ?_) (fun hn => ?_)
    · interval_cases n <;> simp [catSplitNet, nodeAt] at h
    · rw [catSplitNet_default hn] at h
      cases h
  · intro n k h
    refine dflt (n := n) (fun hn => ?_) (fun hn => ?_)
    · interval_cases n <;> simp [catSplitNet, nodeAt] at h
    · rw [catSplitNet_default hn] at h
      cases h
  · intro n n' m h h'
    refine dflt (n := n) (fun hn => ?_) (fun hn => ?_)
    · refine dflt (n := n') (fun hn' => ?_) (fun hn' => ?_)
      · interval_cases n <;> interval_cases n' <;> simp [catSplitNet, nodeAt] at h h' <;> omega
      · rw [catSplitNet_default hn'] at h'
        cases h'
    · rw [catSplitNet_default hn] at h
      cases h
  · intro n h i hi
    refine dflt (n := n) (fun hn => ?_) (fun hn => ?_)
    · interval_cases n <;> simp [catSplitNet, nodeAt] at h hi
      · subst hi
        rfl
      · subst hi
        rfl
    · rw [catSplitNet_default hn] at h
      simp at h
  · intro c s h
    obtain ⟨rfl, rfl⟩ := cats c s h
    decide
  · intro c c' s s' h h' _ _ _
    rw [(cats c s h).1, (cats c' s' h').1]
  · intro c s h
    obtain ⟨rfl, rfl⟩ := cats c s h
    refine List.Forall₂.cons ⟨Or.inl (Branch.act 2 1 (.leaky 0) _ rfl rfl (Branch.layer 1 0 rfl)), Or.inr ?_⟩
      (List.Forall₂.cons ⟨Or.inl (Branch.layer 3 1 rfl), Or.inl ⟨1, rfl⟩⟩ .nil)
    intro n k _ h
    refine dflt (n := n) (fun hn => ?_) (fun hn => ?_)
    · interval_cases n <;> simp [catSplitNet, nodeAt] at h
    · rw [catSplitNet_default hn] at h
      cases h

theorem catShapes_catSplitNet : CatShapes catSplitNet catSplitStore := by
  have rd : ∀ v, Reads catSplitNet 4 v → v = 5 := by
    intro v h
    induction h with
    | direct v hv h =>
      simp only [catSplitNet, List.length_cons, List.length_nil] at hv
      interval_cases v <;> simp [catSplitNet, nodeAt] at h
      rfl
    | through u v _ hop _ _ ih =>
      subst ih
      simp [catSplitNet, nodeAt] at hop
  refine ⟨?_, ?_, ?_⟩
  · intro c s h
    obtain ⟨rfl, rfl⟩ := catSplitNet_cats c s h
    decide
  · intro c s v m h hr hm
    obtain ⟨rfl, rfl⟩ := catSplitNet_cats c s h
    rw [rd v hr] at hm
    cases hm
    rfl
  · intro c s h
    obtain ⟨rfl, rfl⟩ := catSplitNet_cats c s h
    exact ⟨5, .direct 5 (by decide) (by simp [catSplitNet, nodeAt]), trivial⟩

/-- The layers around the concatenation keep their channels and the two after it get two more. -/
example : ((channelSplitting 1 false catSplitNet catSplitStore).map fun st => ((st 0).outCh, (st 1).outCh, (st 2).inCh, (st 2).outCh, (st 3).inCh)) = some (1, 1, 2, 4, 4) := by
  decide +kernel

example (ratio : ℚ) (splitInput : Bool) : ∃ store', channelSplitting ratio splitInput catSplitNet catSplitStore = some store' ∧
    ∀ inputs, outputs store' catSplitNet inputs = outputs catSplitStore catSplitNet inputs :=
  C45_concatenations_partial _ _ _ concats_catSplitNet catShapes_catSplitNet _ _

end Brevitas.Props
