import Verif.Model.Equalize
import Verif.Lemmas.Network
import Mathlib.Tactic.FieldSimp

/-!
The walk of `Model/Equalize.lean` collects a set of nodes closed under users and operands.
-/

set_option linter.unusedSectionVars false

namespace Brevitas.Equalize

open Net

variable {K : Type*} [Field K] [LinearOrder K] [IsStrictOrderedRing K] [FloorRing K]

variable {g : Graph K} {store : ℕ → Layer K}

def Expanded (g : Graph K) (st : WState) (n : ℕ) : Prop := ∀ v ∈ users g n, (n, v) ∈ st.history

def Pulled (g : Graph K) (st : WState) (n : ℕ) : Prop := ∀ u ∈ (nodeAt g n).ins, (u, n) ∈ st.history

def TargetOK (g : Graph K) (store : ℕ → Layer K) (st : WState) (v : ℕ) : Prop :=
  st.unsupported = true ∨
    match (nodeAt g v).op with
    | .module m => (store m).kind ≠ .norm ∧ (m, (⟨0, sinkChannels (store m), 0⟩ : EqIdx)) ∈ st.sinks
    | .act _ | .add _ => Expanded g st v ∧ Pulled g st v
    | _ => False

def SourceOK (g : Graph K) (store : ℕ → Layer K) (st : WState) (u : ℕ) : Prop :=
  st.unsupported = true ∨
    (Expanded g st u ∧
      match (nodeAt g u).op with
      | .module m => (m, (⟨0, (store m).outCh, 0⟩ : EqIdx)) ∈ st.srcs
      | .act _ | .add _ => Pulled g st u
      | _ => False)

structure Le (a b : WState) : Prop where
  history : ∀ e ∈ a.history, e ∈ b.history
  srcs : ∀ e ∈ a.srcs, e ∈ b.srcs
  sinks : ∀ e ∈ a.sinks, e ∈ b.sinks
  uns : a.unsupported = true → b.unsupported = true

theorem Le.refl (a : WState) : Le a a := ⟨fun _ h => h, fun _ h => h, fun _ h => h, fun h => h⟩

theorem Le.trans {a b c : WState} (h : Le a b) (h' : Le b c) : Le a c :=
  ⟨fun e he => h'.history e (h.history e he), fun e he => h'.srcs e (h.srcs e he),
   fun e he => h'.sinks e (h.sinks e he), fun he => h'.uns (h.uns he)⟩

theorem Expanded.mono {a b : WState} (h : Le a b) {n : ℕ} (hn : Expanded g a n) : Expanded g b n :=
  fun v hv => h.history _ (hn v hv)

theorem Pulled.mono {a b : WState} (h : Le a b) {n : ℕ} (hn : Pulled g a n) : Pulled g b n :=
  fun v hv => h.history _ (hn v hv)

theorem TargetOK.mono {a b : WState} (h : Le a b) {n : ℕ} (hn : TargetOK g store a n) : TargetOK g store b n := by
  unfold TargetOK at hn ⊢
  rcases hn with hn | hn
  · exact Or.inl (h.uns hn)
  · right
    cases hop : (nodeAt g n).op <;> rw [hop] at hn <;> dsimp only at hn ⊢
    · exact ⟨hn.1, h.sinks _ hn.2⟩
    · exact ⟨hn.1.mono h, hn.2.mono h⟩
    · exact ⟨hn.1.mono h, hn.2.mono h⟩

theorem SourceOK.mono {a b : WState} (h : Le a b) {n : ℕ} (hn : SourceOK g store a n) : SourceOK g store b n := by
  unfold SourceOK at hn ⊢
  rcases hn with hn | ⟨h1, hn⟩
  · exact Or.inl (h.uns hn)
  · right
    refine ⟨h1.mono h, ?_⟩
    cases hop : (nodeAt g n).op <;> rw [hop] at hn <;> dsimp only at hn ⊢
    · exact h.srcs _ hn
    · exact hn.mono h
    · exact hn.mono h

/-- What holds of the state at every moment of a walk from `n0` through a network without concatenations. -/
structure Inv (g : Graph K) (store : ℕ → Layer K) (n0 : ℕ) (st : WState) : Prop where
  edge : ∀ u v, (u, v) ∈ st.history → u ∈ (nodeAt g v).ins
  src : ∀ m ix, (m, ix) ∈ st.srcs → ix = ⟨0, (store m).outCh, 0⟩ ∧
    ∃ n, (nodeAt g n).op = .module m ∧ (n = n0 ∨ ∃ v, (n, v) ∈ st.history)
  sink : ∀ m ix, (m, ix) ∈ st.sinks → ix = ⟨0, sinkChannels (store m), 0⟩ ∧ (store m).kind ≠ .norm ∧
    ∃ n u, (nodeAt g n).op = .module m ∧ (u, n) ∈ st.history
  srcsNodup : st.srcs.Nodup
  sinksNodup : st.sinks.Nodup
  offset : st.offset = 0
  update : st.updateOffset = false

theorem mem_users {n v : ℕ} : v ∈ users g n ↔ v < g.length ∧ n ∈ (nodeAt g v).ins := by
  simp [users]

theorem mem_inputNodes {n u : ℕ} : u ∈ inputNodes g n ↔ u ∈ (nodeAt g n).ins := by
  simp [inputNodes]

theorem mem_addKey {α : Type*} [DecidableEq α] {l : List α} {k x : α} : x ∈ addKey l k ↔ x ∈ l ∨ x = k := by
  unfold addKey
  by_cases h : k ∈ l
  · rw [if_pos h]
    constructor
    · exact Or.inl
    · rintro (h1 | rfl)
      · exact h1
      · exact h
  · rw [if_neg h]
    simp

theorem nodup_addKey {α : Type*} [DecidableEq α] {l : List α} (hl : l.Nodup) (k : α) : (addKey l k).Nodup := by
  unfold addKey
  by_cases h : k ∈ l
  · rwa [if_pos h]
  · rw [if_neg h, List.nodup_append]
    refine ⟨hl, by simp, ?_⟩
    intro a ha b hb
    simp only [List.mem_singleton] at hb
    rintro rfl
    exact h (hb ▸ ha)

/-- All the edges of a network. -/
def edges (g : Graph K) : List (ℕ × ℕ) :=
  (List.range g.length).flatMap fun v => (nodeAt g v).ins.map fun u => (u, v)

theorem mem_edges {u v : ℕ} : (u, v) ∈ edges g ↔ u ∈ (nodeAt g v).ins := by
  unfold edges
  simp only [List.mem_flatMap, List.mem_range, List.mem_map, Prod.mk.injEq]
  constructor
  · rintro ⟨v', hv', u', hu', rfl, rfl⟩
    exact hu'
  · intro h
    refine ⟨v, ?_, u, h, rfl, rfl⟩
    by_contra hcon
    unfold nodeAt at h
    rw [List.getD_eq_default _ _ (by omega)] at h
    simp at h

/-- The number of edges not yet walked. -/
def unvisited (g : Graph K) (st : WState) : ℕ := ((edges g).toFinset \ st.history.toFinset).card

theorem unvisited_mono {a b : WState} (h : Le a b) : unvisited g b ≤ unvisited g a := by
  apply Finset.card_le_card
  intro e he
  simp only [Finset.mem_sdiff, List.mem_toFinset] at he ⊢
  exact ⟨he.1, fun h1 => he.2 (h.history e h1)⟩

theorem unvisited_lt {a b : WState} (h : Le a b) {e : ℕ × ℕ} (he : e ∈ edges g) (ha : e ∉ a.history)
    (hb : e ∈ b.history) : unvisited g b < unvisited g a := by
  apply Finset.card_lt_card
  rw [Finset.ssubset_iff_of_subset]
  · exact ⟨e, by simp [he, ha], by simp [hb]⟩
  · intro e he
    simp only [Finset.mem_sdiff, List.mem_toFinset] at he ⊢
    exact ⟨he.1, fun h1 => he.2 (h.history e h1)⟩

theorem foldlM_spec {α σ : Type*} {P : List α → σ → Prop} (step : σ → α → Option σ) :
    ∀ (l done : List α) (st : σ),
      (∀ done x st, x ∈ l → P done st → ∃ st', step st x = some st' ∧ P (done ++ [x]) st') →
      P done st → ∃ st', l.foldlM step st = some st' ∧ P (done ++ l) st'
  | [], done, st, _, h => ⟨st, rfl, by simpa using h⟩
  | x :: l, done, st, hs, h => by
    obtain ⟨st1, h1, h2⟩ := hs done x st (by simp) h
    obtain ⟨st2, h3, h4⟩ := foldlM_spec step l (done ++ [x]) st1
      (fun d y s hy => hs d y s (by simp [hy])) h2
    refine ⟨st2, ?_, by simpa using h4⟩
    rw [List.foldlM_cons, h1]
    exact h3

/-- Result of `find_sinks` on node `n`. -/
structure PostDown (g : Graph K) (store : ℕ → Layer K) (n0 n : ℕ) (st st' : WState) : Prop where
  inv : Inv g store n0 st'
  le : Le st st'
  expanded : Expanded g st' n
  new : ∀ e ∈ st'.history, e ∉ st.history → TargetOK g store st' e.2 ∧ (SourceOK g store st' e.1 ∨ e.1 = n)

/-- Result of `find_srcs` on node `n`. -/
structure PostUp (g : Graph K) (store : ℕ → Layer K) (n0 n : ℕ) (st st' : WState) : Prop where
  inv : Inv g store n0 st'
  le : Le st st'
  pulled : Pulled g st' n
  new : ∀ e ∈ st'.history, e ∉ st.history → TargetOK g store st' e.2 ∧ SourceOK g store st' e.1

/-- Adding an edge to the history. -/
theorem Inv.addEdge {n0 : ℕ} {st : WState} (h : Inv g store n0 st) {u v : ℕ} (huv : u ∈ (nodeAt g v).ins) :
    Inv g store n0 { st with history := (u, v) :: st.history } where
  edge := by
    intro a b hab
    simp only [List.mem_cons, Prod.mk.injEq] at hab
    rcases hab with ⟨rfl, rfl⟩ | hab
    · exact huv
    · exact h.edge a b hab
  src := by
    intro m ix hm
    obtain ⟨h1, n, h2, h3⟩ := h.src m ix hm
    refine ⟨h1, n, h2, ?_⟩
    rcases h3 with h3 | ⟨w, h3⟩
    · exact Or.inl h3
    · exact Or.inr ⟨w, List.mem_cons_of_mem _ h3⟩
  sink := by
    intro m ix hm
    obtain ⟨h1, h2, n, w, h3, h4⟩ := h.sink m ix hm
    exact ⟨h1, h2, n, w, h3, List.mem_cons_of_mem _ h4⟩
  srcsNodup := h.srcsNodup
  sinksNodup := h.sinksNodup
  offset := h.offset
  update := h.update

theorem le_addEdge (st : WState) (e : ℕ × ℕ) : Le st { st with history := e :: st.history } :=
  ⟨fun _ h => List.mem_cons_of_mem _ h, fun _ h => h, fun _ h => h, fun h => h⟩

theorem walk_spec (hg : NoProducts g) (n0 : ℕ) : ∀ fuel : ℕ,
    (∀ n st, unvisited g st < fuel → Inv g store n0 st →
      ∃ st', walk g store fuel true n st = some st' ∧ PostDown g store n0 n st st') ∧
    (∀ n st, unvisited g st < fuel → Inv g store n0 st → Expanded g st n →
      ((∃ a, (nodeAt g n).op = .act a) ∨ ∃ k, (nodeAt g n).op = .add k) →
      ∃ st', walk g store fuel false n st = some st' ∧ PostUp g store n0 n st st') := by
  intro fuel
  induction fuel with
  | zero =>
    constructor
    · intro n st h
      omega
    · intro n st h
      omega
  | succ fuel ih =>
    obtain ⟨ihD, ihU⟩ := ih
    -- both directions out of a node with no weights
    have both : ∀ x st, unvisited g st < fuel → Inv g store n0 st →
        ((∃ a, (nodeAt g x).op = .act a) ∨ ∃ k, (nodeAt g x).op = .add k) →
        ∃ s2 s3, walk g store fuel true x st = some s2 ∧ walk g store fuel false x s2 = some s3 ∧
          Inv g store n0 s3 ∧ Le st s3 ∧ Expanded g s3 x ∧ Pulled g s3 x ∧
          ∀ e ∈ s3.history, e ∉ st.history → TargetOK g store s3 e.2 ∧ SourceOK g store s3 e.1 := by
      intro x st hf hi hop
      obtain ⟨s2, h2, p2⟩ := ihD x st hf hi
      obtain ⟨s3, h3, p3⟩ := ihU x s2 (lt_of_le_of_lt (unvisited_mono p2.le) hf) p2.inv p2.expanded hop
      refine ⟨s2, s3, h2, h3, p3.inv, p2.le.trans p3.le, p2.expanded.mono p3.le, p3.pulled, ?_⟩
      intro e he hne
      by_cases he2 : e ∈ s2.history
      · obtain ⟨t1, t2⟩ := p2.new e he2 hne
        refine ⟨t1.mono p3.le, ?_⟩
        rcases t2 with t2 | t2
        · exact t2.mono p3.le
        · rw [t2]
          right
          refine ⟨p2.expanded.mono p3.le, ?_⟩
          rcases hop with ⟨a, hop⟩ | ⟨k, hop⟩ <;> rw [hop] <;> exact p3.pulled
      · exact p3.new e he he2
    constructor
    · intro n st hfuel hinv
      unfold walk
      rw [if_pos rfl]
      have key := foldlM_spec
        (P := fun done s => Inv g store n0 s ∧ Le st s ∧ (∀ x ∈ done, (n, x) ∈ s.history) ∧
          ∀ e ∈ s.history, e ∉ st.history → TargetOK g store s e.2 ∧ (SourceOK g store s e.1 ∨ e.1 = n))
        (visitDown g store (walk g store fuel) st.updateOffset n) (users g n) [] st ?_
        ⟨hinv, Le.refl _, by simp, fun e he hne => absurd he hne⟩
      · obtain ⟨st', h1, h2, h3, h4, h5⟩ := key
        exact ⟨st', h1, h2, h3, by simpa [Expanded] using h4, h5⟩
      · rintro done x s hx ⟨hi, hle, hdone, hnew⟩
        rw [mem_users] at hx
        obtain ⟨hxlt, hxin⟩ := hx
        unfold visitDown
        by_cases hmem : (n, x) ∈ s.history
        · rw [if_pos hmem]
          refine ⟨s, rfl, hi, hle, ?_, hnew⟩
          intro y hy
          rw [List.mem_append, List.mem_singleton] at hy
          rcases hy with hy | rfl
          · exact hdone y hy
          · exact hmem
        · rw [if_neg hmem]
          set s1 : WState := { s with history := (n, x) :: s.history } with hs1
          have hi1 : Inv g store n0 s1 := hi.addEdge hxin
          have hle1 : Le s s1 := le_addEdge s _
          have hf1 : unvisited g s1 < fuel := by
            have := unvisited_lt (g := g) hle1 (mem_edges.2 hxin) hmem (by simp [hs1])
            have := unvisited_mono (g := g) hle
            omega
          -- closing a step: it is enough to treat the edges added after `s`
          have close : ∀ s', Inv g store n0 s' → Le s1 s' → TargetOK g store s' x →
              (∀ e ∈ s'.history, e ∉ s1.history → TargetOK g store s' e.2 ∧ SourceOK g store s' e.1) →
              Inv g store n0 s' ∧ Le st s' ∧ (∀ y ∈ done ++ [x], (n, y) ∈ s'.history) ∧
              ∀ e ∈ s'.history, e ∉ st.history → TargetOK g store s' e.2 ∧ (SourceOK g store s' e.1 ∨ e.1 = n) := by
            intro s' hi' hle' ht hn'
            refine ⟨hi', hle.trans (hle1.trans hle'), ?_, ?_⟩
            · intro y hy
              rw [List.mem_append, List.mem_singleton] at hy
              rcases hy with hy | rfl
              · exact (hle1.trans hle').history _ (hdone y hy)
              · exact hle'.history _ (by simp [hs1])
            · intro e he hne
              by_cases he1 : e ∈ s1.history
              · rw [hs1] at he1
                simp only [List.mem_cons] at he1
                rcases he1 with rfl | he1
                · exact ⟨ht, Or.inr rfl⟩
                · obtain ⟨t1, t2⟩ := hnew e he1 hne
                  exact ⟨t1.mono (hle1.trans hle'), t2.imp (fun h => h.mono (hle1.trans hle')) id⟩
              · obtain ⟨t1, t2⟩ := hn' e he he1
                exact ⟨t1, Or.inl t2⟩
          have unsupp : ∀ s' : WState, s' = { s1 with unsupported := true } →
              Inv g store n0 s' ∧ Le st s' ∧ (∀ y ∈ done ++ [x], (n, y) ∈ s'.history) ∧
              ∀ e ∈ s'.history, e ∉ st.history → TargetOK g store s' e.2 ∧ (SourceOK g store s' e.1 ∨ e.1 = n) := by
            rintro s' rfl
            apply close
            · exact ⟨hi1.edge, hi1.src, hi1.sink, hi1.srcsNodup, hi1.sinksNodup, hi1.offset, hi1.update⟩
            · exact ⟨fun _ h => h, fun _ h => h, fun _ h => h, fun _ => rfl⟩
            · exact Or.inl rfl
            · intro e he hne
              exact absurd he hne
          cases hop : (nodeAt g x).op with
          | module m =>
            dsimp only
            by_cases hk : (store m).kind = .norm
            · rw [if_pos hk]
              exact ⟨_, rfl, unsupp _ rfl⟩
            · rw [if_neg hk]
              refine ⟨_, rfl, ?_⟩
              apply close
              · refine ⟨hi1.edge, hi1.src, ?_, hi1.srcsNodup, nodup_addKey hi1.sinksNodup _, hi1.offset, hi1.update⟩
                intro m' ix hm'
                rcases mem_addKey.1 hm' with hm' | hm'
                · exact hi1.sink m' ix hm'
                · simp only [Prod.mk.injEq] at hm'
                  obtain ⟨rfl, rfl⟩ := hm'
                  refine ⟨by rw [hi1.offset], hk, x, n, hop, by simp [hs1]⟩
              · exact ⟨fun _ h => h, fun _ h => h, fun _ h => mem_addKey.2 (Or.inl h), fun h => h⟩
              · right
                rw [hop]
                refine ⟨hk, mem_addKey.2 (Or.inr ?_)⟩
                rw [hi1.offset]
              · intro e he hne
                exact absurd he hne
          | act a =>
            dsimp only
            obtain ⟨s2, h2, p2⟩ := ihD x s1 hf1 hi1
            obtain ⟨i, hins⟩ := hg.unary x hxlt (by simp [hop]) (by simp [hop])
            have hni : i = n := by
              rw [hins] at hxin
              simp only [List.mem_singleton] at hxin
              exact hxin.symm
            have hpull : Pulled g s2 x := by
              intro u hu
              rw [hins] at hu
              simp only [List.mem_singleton] at hu
              rw [hu, hni]
              exact p2.le.history _ (by simp [hs1])
            have hT : TargetOK g store s2 x := by
              right
              rw [hop]
              exact ⟨p2.expanded, hpull⟩
            have hS : SourceOK g store s2 x := by
              right
              refine ⟨p2.expanded, ?_⟩
              rw [hop]
              exact hpull
            refine ⟨s2, h2, close s2 p2.inv p2.le hT ?_⟩
            intro e he hne
            obtain ⟨t1, t2⟩ := p2.new e he hne
            refine ⟨t1, ?_⟩
            rcases t2 with t2 | t2
            · exact t2
            · rw [t2]
              exact hS
          | add k =>
            dsimp only
            have hi1' : Inv g store n0 { s1 with updateOffset := false } :=
              ⟨hi1.edge, hi1.src, hi1.sink, hi1.srcsNodup, hi1.sinksNodup, hi1.offset, rfl⟩
            obtain ⟨s2, s3, h2, h3, q1, q2, q3, q4, q5⟩ := both x { s1 with updateOffset := false } hf1 hi1'
              (Or.inr ⟨k, hop⟩)
            refine ⟨{ s3 with updateOffset := st.updateOffset }, ?_, ?_⟩
            · simp only [h2, h3, Option.bind_eq_bind, Option.bind_some, pure]
            · have hle3 : Le s3 { s3 with updateOffset := st.updateOffset } :=
                ⟨fun _ h => h, fun _ h => h, fun _ h => h, fun h => h⟩
              apply close
              · exact ⟨q1.edge, q1.src, q1.sink, q1.srcsNodup, q1.sinksNodup, q1.offset, hinv.update⟩
              · exact (⟨q2.history, q2.srcs, q2.sinks, q2.uns⟩ : Le s1 s3).trans hle3
              · right
                rw [hop]
                exact ⟨q3.mono hle3, q4.mono hle3⟩
              · intro e he hne
                obtain ⟨t1, t2⟩ := q5 e he hne
                exact ⟨t1.mono hle3, t2.mono hle3⟩
          | mul => exact absurd hop (hg.noMul x)
          | cat sz => exact absurd hop (hg.noCat x sz)
          | input k => exact ⟨_, rfl, unsupp _ rfl⟩
          | other f => exact ⟨_, rfl, unsupp _ rfl⟩
          | output => exact ⟨_, rfl, unsupp _ rfl⟩
    · intro n st hfuel hinv hexp hopn
      unfold walk
      rw [if_neg (by simp)]
      have key := foldlM_spec
        (P := fun done s => Inv g store n0 s ∧ Le st s ∧ (∀ x ∈ done, (x, n) ∈ s.history) ∧
          ∀ e ∈ s.history, e ∉ st.history → (TargetOK g store s e.2 ∨ e.2 = n) ∧ SourceOK g store s e.1)
        (visitUp g store (walk g store fuel) st.updateOffset n) (inputNodes g n) [] st ?_
        ⟨hinv, Le.refl _, by simp, fun e he hne => absurd he hne⟩
      · obtain ⟨st', h1, h2, h3, h4, h5⟩ := key
        have hpull : Pulled g st' n := by
          intro u hu
          exact h4 u (by simpa [mem_inputNodes] using hu)
        refine ⟨st', h1, h2, h3, hpull, ?_⟩
        intro e he hne
        obtain ⟨t1, t2⟩ := h5 e he hne
        refine ⟨?_, t2⟩
        rcases t1 with t1 | t1
        · exact t1
        · rw [t1]
          right
          rcases hopn with ⟨a, hop⟩ | ⟨k, hop⟩ <;> rw [hop] <;> exact ⟨hexp.mono h3, hpull⟩
      · rintro done x s hx ⟨hi, hle, hdone, hnew⟩
        have hxin := mem_inputNodes.1 hx
        unfold visitUp
        by_cases hmem : (x, n) ∈ s.history
        · rw [if_pos hmem]
          refine ⟨s, rfl, hi, hle, ?_, hnew⟩
          intro y hy
          rw [List.mem_append, List.mem_singleton] at hy
          rcases hy with hy | rfl
          · exact hdone y hy
          · exact hmem
        · rw [if_neg hmem]
          set s1 : WState := { s with history := (x, n) :: s.history } with hs1
          have hi1 : Inv g store n0 s1 := hi.addEdge hxin
          have hle1 : Le s s1 := le_addEdge s _
          have hf1 : unvisited g s1 < fuel := by
            have := unvisited_lt (g := g) hle1 (mem_edges.2 hxin) hmem (by simp [hs1])
            have := unvisited_mono (g := g) hle
            omega
          have close : ∀ s', Inv g store n0 s' → Le s1 s' → SourceOK g store s' x →
              (∀ e ∈ s'.history, e ∉ s1.history → TargetOK g store s' e.2 ∧ SourceOK g store s' e.1) →
              Inv g store n0 s' ∧ Le st s' ∧ (∀ y ∈ done ++ [x], (y, n) ∈ s'.history) ∧
              ∀ e ∈ s'.history, e ∉ st.history → (TargetOK g store s' e.2 ∨ e.2 = n) ∧ SourceOK g store s' e.1 := by
            intro s' hi' hle' ht hn'
            refine ⟨hi', hle.trans (hle1.trans hle'), ?_, ?_⟩
            · intro y hy
              rw [List.mem_append, List.mem_singleton] at hy
              rcases hy with hy | rfl
              · exact (hle1.trans hle').history _ (hdone y hy)
              · exact hle'.history _ (by simp [hs1])
            · intro e he hne
              by_cases he1 : e ∈ s1.history
              · rw [hs1] at he1
                simp only [List.mem_cons] at he1
                rcases he1 with rfl | he1
                · exact ⟨Or.inr rfl, ht⟩
                · obtain ⟨t1, t2⟩ := hnew e he1 hne
                  exact ⟨t1.imp (fun h => h.mono (hle1.trans hle')) id, t2.mono (hle1.trans hle')⟩
              · obtain ⟨t1, t2⟩ := hn' e he he1
                exact ⟨Or.inl t1, t2⟩
          have unsupp : ∀ s' : WState, s' = { s1 with unsupported := true } →
              Inv g store n0 s' ∧ Le st s' ∧ (∀ y ∈ done ++ [x], (y, n) ∈ s'.history) ∧
              ∀ e ∈ s'.history, e ∉ st.history → (TargetOK g store s' e.2 ∨ e.2 = n) ∧ SourceOK g store s' e.1 := by
            rintro s' rfl
            apply close
            · exact ⟨hi1.edge, hi1.src, hi1.sink, hi1.srcsNodup, hi1.sinksNodup, hi1.offset, hi1.update⟩
            · exact ⟨fun _ h => h, fun _ h => h, fun _ h => h, fun _ => rfl⟩
            · exact Or.inl rfl
            · intro e he hne
              exact absurd he hne
          cases hop : (nodeAt g x).op with
          | module m =>
            dsimp only
            set s1' : WState := { s1 with srcs := addKey s1.srcs (m, ⟨0, (store m).outCh, s1.offset⟩) } with hs1'
            have hi1' : Inv g store n0 s1' := by
              refine ⟨hi1.edge, ?_, hi1.sink, nodup_addKey hi1.srcsNodup _, hi1.sinksNodup, hi1.offset, hi1.update⟩
              intro m' ix hm'
              rcases mem_addKey.1 hm' with hm' | hm'
              · exact hi1.src m' ix hm'
              · simp only [Prod.mk.injEq] at hm'
                obtain ⟨rfl, rfl⟩ := hm'
                refine ⟨by rw [hi1.offset], x, hop, Or.inr ⟨n, by simp [hs1', hs1]⟩⟩
            have hle1' : Le s1 s1' :=
              ⟨fun _ h => h, fun _ h => mem_addKey.2 (Or.inl h), fun _ h => h, fun h => h⟩
            obtain ⟨s2, h2, p2⟩ := ihD x s1' hf1 hi1'
            have hup : s2.updateOffset = false := p2.inv.update
            refine ⟨s2, ?_, ?_⟩
            · have e : (if s2.updateOffset = true then s2.offset + (store m).outCh else s2.offset) = s2.offset := by
                rw [hup]
                rfl
              simp only [h2, Option.bind_eq_bind, Option.bind_some, pure, e]
            · have hS : SourceOK g store s2 x := by
                right
                refine ⟨p2.expanded, ?_⟩
                rw [hop]
                exact p2.le.srcs _ (mem_addKey.2 (Or.inr (by rw [hi1.offset])))
              apply close s2 p2.inv (hle1'.trans p2.le) hS
              intro e he hne
              obtain ⟨t1, t2⟩ := p2.new e he hne
              refine ⟨t1, ?_⟩
              rcases t2 with t2 | t2
              · exact t2
              · rw [t2]
                exact hS
          | act a =>
            dsimp only
            obtain ⟨s2, s3, h2, h3, q1, q2, q3, q4, q5⟩ := both x s1 hf1 hi1 (Or.inl ⟨a, hop⟩)
            refine ⟨s3, ?_, ?_⟩
            · simp only [h2, h3, Option.bind_eq_bind, Option.bind_some]
            · apply close s3 q1 q2 _ q5
              right
              refine ⟨q3, ?_⟩
              rw [hop]
              exact q4
          | add k =>
            dsimp only
            have hi1' : Inv g store n0 { s1 with updateOffset := false } :=
              ⟨hi1.edge, hi1.src, hi1.sink, hi1.srcsNodup, hi1.sinksNodup, hi1.offset, rfl⟩
            obtain ⟨s2, s3, h2, h3, q1, q2, q3, q4, q5⟩ := both x { s1 with updateOffset := false } hf1 hi1'
              (Or.inr ⟨k, hop⟩)
            refine ⟨{ s3 with updateOffset := st.updateOffset }, ?_, ?_⟩
            · simp only [h2, h3, Option.bind_eq_bind, Option.bind_some, pure]
            · have hle3 : Le s3 { s3 with updateOffset := st.updateOffset } :=
                ⟨fun _ h => h, fun _ h => h, fun _ h => h, fun h => h⟩
              apply close
              · exact ⟨q1.edge, q1.src, q1.sink, q1.srcsNodup, q1.sinksNodup, q1.offset, hinv.update⟩
              · exact (⟨q2.history, q2.srcs, q2.sinks, q2.uns⟩ : Le s1 s3).trans hle3
              · right
                refine ⟨q3.mono hle3, ?_⟩
                rw [hop]
                exact q4.mono hle3
              · intro e he hne
                obtain ⟨t1, t2⟩ := q5 e he hne
                exact ⟨t1.mono hle3, t2.mono hle3⟩
          | mul => exact absurd hop (hg.noMul x)
          | cat sz => exact absurd hop (hg.noCat x sz)
          | input k => exact ⟨_, rfl, unsupp _ rfl⟩
          | other f => exact ⟨_, rfl, unsupp _ rfl⟩
          | output => exact ⟨_, rfl, unsupp _ rfl⟩

/-- `S` is the set of nodes whose values are rescaled by the region. -/
structure Closed (g : Graph K) (store : ℕ → Layer K) (r : Region) (S : ℕ → Prop) : Prop where
  own : ∀ n, S n →
    match (nodeAt g n).op with
    | .module m => (m, (⟨0, (store m).outCh, 0⟩ : EqIdx)) ∈ r.srcs
    | .act _ | .add _ => ∀ i ∈ (nodeAt g n).ins, S i
    | _ => False
  user : ∀ n v, S n → v < g.length → n ∈ (nodeAt g v).ins →
    match (nodeAt g v).op with
    | .module m => (m, (⟨0, sinkChannels (store m), 0⟩ : EqIdx)) ∈ r.sinks
    | .act _ | .add _ => S v
    | _ => False
  src : ∀ m ix, (m, ix) ∈ r.srcs → ix = ⟨0, (store m).outCh, 0⟩ ∧ ∃ n, (nodeAt g n).op = .module m ∧ S n
  sink : ∀ m ix, (m, ix) ∈ r.sinks → ix = ⟨0, sinkChannels (store m), 0⟩ ∧ (store m).kind ≠ .norm ∧
    ∃ n u, (nodeAt g n).op = .module m ∧ u ∈ (nodeAt g n).ins ∧ S u
  srcsNodup : r.srcs.Nodup
  sinksNodup : r.sinks.Nodup
  srcsNe : r.srcs ≠ []

theorem unvisited_lt_walkFuel (g : Graph K) (st : WState) : unvisited g st < walkFuel g := by
  have h1 : unvisited g st ≤ (edges g).toFinset.card := Finset.card_le_card Finset.sdiff_subset
  have h2 : (edges g).toFinset.card ≤ (edges g).length := List.toFinset_card_le _
  have h3 : (edges g).length = (g.map fun n => n.ins.length).sum := by
    unfold edges
    rw [List.length_flatMap]
    congr 1
    apply List.ext_getElem
    · simp
    · intro i h1 h2
      simp only [List.length_map, List.length_range] at h1 h2
      simp only [List.getElem_map, List.getElem_range, List.length_map]
      unfold nodeAt
      rw [List.getD_eq_getElem _ _ h2]
  unfold walkFuel
  omega

theorem regionOf_spec (hg : NoProducts g) (n0 m0 : ℕ) (hop : (nodeAt g n0).op = .module m0) :
    ∃ res, regionOf g store n0 m0 = some res ∧ ∀ r, res = some r → ∃ S, Closed g store r S := by
  have hinv : Inv g store n0 { srcs := [(m0, ⟨0, (store m0).outCh, 0⟩)] } := by
    refine ⟨by simp, ?_, by simp, by simp, by simp, rfl, rfl⟩
    intro m ix hm
    simp only [List.mem_singleton, Prod.mk.injEq] at hm
    obtain ⟨rfl, rfl⟩ := hm
    exact ⟨rfl, n0, hop, Or.inl rfl⟩
  obtain ⟨st, h1, p⟩ := (walk_spec (store := store) hg n0 (walkFuel g)).1 n0 _ (unvisited_lt_walkFuel g _) hinv
  unfold regionOf
  rw [h1]
  simp only [Option.bind_eq_bind, Option.bind_some, pure]
  by_cases hu : (st.sinks.isEmpty || st.unsupported) = true
  · rw [if_pos hu]
    exact ⟨_, rfl, by simp⟩
  · rw [if_neg hu]
    refine ⟨_, rfl, ?_⟩
    intro r hr
    simp only [Option.some.injEq] at hr
    subst hr
    have hns : st.unsupported = false := by
      cases h : st.unsupported
      · rfl
      · exact absurd (by simp [h]) hu
    have hT : ∀ u v, (u, v) ∈ st.history → TargetOK g store st v := fun u v h => (p.new (u, v) h (by simp)).1
    have hS : ∀ u v, (u, v) ∈ st.history → SourceOK g store st u := by
      intro u v h
      rcases (p.new (u, v) h (by simp)).2 with h2 | h2
      · exact h2
      · dsimp only at h2
        rw [h2]
        right
        refine ⟨p.expanded, ?_⟩
        rw [hop]
        exact p.le.srcs _ (by simp)
    let S : ℕ → Prop := fun n => n = n0 ∨ (∃ v, (n, v) ∈ st.history) ∨
      ((∃ u, (u, n) ∈ st.history) ∧ ((∃ a, (nodeAt g n).op = .act a) ∨ ∃ k, (nodeAt g n).op = .add k))
    have hSource : ∀ n, S n → SourceOK g store st n := by
      rintro n (rfl | ⟨v, h⟩ | ⟨⟨u, h⟩, h'⟩)
      · right
        refine ⟨p.expanded, ?_⟩
        rw [hop]
        exact p.le.srcs _ (by simp)
      · exact hS n v h
      · rcases hT u n h with h2 | h2
        · rw [hns] at h2
          cases h2
        · right
          rcases h' with ⟨a, h'⟩ | ⟨k, h'⟩
          · rw [h'] at h2
            exact ⟨h2.1, by rw [h']; exact h2.2⟩
          · rw [h'] at h2
            exact ⟨h2.1, by rw [h']; exact h2.2⟩
    have hSource' : ∀ n, S n → Expanded g st n ∧
        match (nodeAt g n).op with
        | .module m => (m, (⟨0, (store m).outCh, 0⟩ : EqIdx)) ∈ st.srcs
        | .act _ | .add _ => Pulled g st n
        | _ => False := by
      intro n hn
      rcases hSource n hn with h | h
      · rw [hns] at h
        cases h
      · exact h
    refine ⟨S, ?_, ?_, ?_, ?_, p.inv.srcsNodup, p.inv.sinksNodup,
      List.ne_nil_of_mem (p.le.srcs (m0, ⟨0, (store m0).outCh, 0⟩) (by simp))⟩
    · intro n hn
      have := (hSource' n hn).2
      cases hopn : (nodeAt g n).op <;> rw [hopn] at this <;> dsimp only at this ⊢
      · exact this
      · exact fun i hi => Or.inr (Or.inl ⟨n, this i hi⟩)
      · exact fun i hi => Or.inr (Or.inl ⟨n, this i hi⟩)
    · intro n v hn hv hin
      have he : (n, v) ∈ st.history := (hSource' n hn).1 v (mem_users.2 ⟨hv, hin⟩)
      have ht : _ := hT n v he
      unfold TargetOK at ht
      rw [hns] at ht
      simp only [Bool.false_eq_true, false_or] at ht
      cases hopv : (nodeAt g v).op <;> rw [hopv] at ht <;> dsimp only at ht ⊢
      · exact ht.2
      · exact Or.inr (Or.inr ⟨⟨n, he⟩, Or.inl ⟨_, hopv⟩⟩)
      · exact Or.inr (Or.inr ⟨⟨n, he⟩, Or.inr ⟨_, hopv⟩⟩)
    · intro m ix hm
      obtain ⟨h2, n, h3, h4⟩ := p.inv.src m ix hm
      refine ⟨h2, n, h3, ?_⟩
      rcases h4 with h4 | h4
      · exact Or.inl h4
      · exact Or.inr (Or.inl h4)
    · intro m ix hm
      obtain ⟨h2, h3, n, u, h4, h5⟩ := p.inv.sink m ix hm
      exact ⟨h2, h3, n, u, h4, p.inv.edge u n h5, Or.inr (Or.inl ⟨n, h5⟩)⟩

theorem extractRegions_spec (hg : NoProducts g) (store : ℕ → Layer K) :
    ∃ regions, extractRegions g store = some regions ∧ ∀ r ∈ regions, ∃ S, Closed g store r S := by
  unfold extractRegions
  have key := foldlM_spec (P := fun (_ : List ℕ) (rs : List Region) => ∀ r ∈ rs, ∃ S, Closed g store r S)
    (extractStep g store) (List.range g.length) [] [] ?_ (by simp)
  · exact key
  · intro done n rs _ hrs
    unfold extractStep
    cases hop : (nodeAt g n).op with
    | module m =>
      obtain ⟨res, h1, h2⟩ := regionOf_spec (store := store) hg n m hop
      dsimp only
      rw [h1]
      cases res with
      | none => exact ⟨rs, rfl, hrs⟩
      | some r =>
        refine ⟨_, rfl, ?_⟩
        split_ifs
        · exact hrs
        · intro r' hr'
          rw [List.mem_append, List.mem_singleton] at hr'
          rcases hr' with hr' | rfl
          · exact hrs r' hr'
          · exact h2 _ rfl
    | _ => exact ⟨rs, rfl, hrs⟩

/-! ## The update of the weights -/

theorem foldl_updateStore (h : EqIdx → Layer K → Layer K) :
    ∀ (l : List (ℕ × EqIdx)) (store : ℕ → Layer K), (l.map Prod.fst).Nodup → ∀ m,
      (∀ ix, (m, ix) ∈ l →
        l.foldl (fun st s => updateStore st s.1 (h s.2)) store m = h ix (store m)) ∧
      ((∀ ix, (m, ix) ∉ l) → l.foldl (fun st s => updateStore st s.1 (h s.2)) store m = store m)
  | [], store, _, m => by simp
  | s :: l, store, hl, m => by
    simp only [List.map_cons, List.nodup_cons] at hl
    obtain ⟨hs, hl⟩ := hl
    obtain ⟨h1, h2⟩ := foldl_updateStore h l (updateStore store s.1 (h s.2)) hl m
    simp only [List.foldl_cons]
    constructor
    · intro ix hix
      rw [List.mem_cons] at hix
      rcases hix with hix | hix
      · have hm : m = s.1 := congrArg Prod.fst hix
        have hi : ix = s.2 := congrArg Prod.snd hix
        rw [h2]
        · simp [updateStore, hm, hi]
        · intro ix' h'
          apply hs
          rw [← hm]
          exact List.mem_map.2 ⟨(m, ix'), h', rfl⟩
      · rw [h1 ix hix]
        have hm : m ≠ s.1 := by
          intro hm
          apply hs
          rw [← hm]
          exact List.mem_map.2 ⟨(m, ix), hix, rfl⟩
        simp [updateStore, hm]
    · intro hno
      rw [h2 (fun ix hix => hno ix (List.mem_cons_of_mem _ hix))]
      have hm : m ≠ s.1 := by
        intro hm
        apply hno s.2
        rw [hm]
        simp
      simp [updateStore, hm]

theorem names_nodup {l : List (ℕ × EqIdx)} (hl : l.Nodup) {F : ℕ → EqIdx} (hF : ∀ m ix, (m, ix) ∈ l → ix = F m) :
    (l.map Prod.fst).Nodup := by
  apply List.Nodup.map_on _ hl
  rintro ⟨m, ix⟩ h1 ⟨m', ix'⟩ h2 hmm
  dsimp only at hmm
  subst hmm
  rw [hF m ix h1, hF m ix' h2]

/-- The two stores have layers of the same shapes. -/
def SameShape (a b : ℕ → Layer K) : Prop :=
  ∀ m, (b m).kind = (a m).kind ∧ (b m).outCh = (a m).outCh ∧ (b m).inCh = (a m).inCh

theorem SameShape.sinkChannels {a b : ℕ → Layer K} (h : SameShape a b) (m : ℕ) :
    Equalize.sinkChannels (b m) = Equalize.sinkChannels (a m) := by
  unfold Equalize.sinkChannels
  rw [(h m).1, (h m).2.1, (h m).2.2]

theorem Closed.congr {a b : ℕ → Layer K} (h : SameShape a b) {r : Region} {S : ℕ → Prop} (hc : Closed g a r S) :
    Closed g b r S where
  own := by
    intro n hn
    have := hc.own n hn
    cases hop : (nodeAt g n).op <;> rw [hop] at this <;> dsimp only at this ⊢
    · rw [(h _).2.1]
      exact this
    · exact this
    · exact this
  user := by
    intro n v hn hv hin
    have := hc.user n v hn hv hin
    cases hop : (nodeAt g v).op <;> rw [hop] at this <;> dsimp only at this ⊢
    · rw [h.sinkChannels]
      exact this
    · exact this
    · exact this
  src := by
    intro m ix hm
    obtain ⟨h1, h2⟩ := hc.src m ix hm
    exact ⟨by rw [h1, (h m).2.1], h2⟩
  sink := by
    intro m ix hm
    obtain ⟨h1, h2, h3⟩ := hc.sink m ix hm
    exact ⟨by rw [h1, h.sinkChannels], by rw [(h m).1]; exact h2, h3⟩
  srcsNodup := hc.srcsNodup
  sinksNodup := hc.sinksNodup
  srcsNe := hc.srcsNe

theorem sameShape_applyFactors (f : ℕ → K) (r : Region) (store : ℕ → Layer K) :
    SameShape store (applyFactors f r store) := by
  have step : ∀ (h : EqIdx → Layer K → Layer K)
      (_ : ∀ ix L, (h ix L).kind = L.kind ∧ (h ix L).outCh = L.outCh ∧ (h ix L).inCh = L.inCh)
      (l : List (ℕ × EqIdx)) (st : ℕ → Layer K), SameShape store st →
      SameShape store (l.foldl (fun st s => updateStore st s.1 (h s.2)) st) := by
    intro h hh l
    induction l with
    | nil => intro st hst; exact hst
    | cons s l ih =>
      intro st hst
      apply ih
      intro m
      unfold updateStore
      beta_reduce
      by_cases hm : m = s.1
      · rw [if_pos hm, (hh _ _).1, (hh _ _).2.1, (hh _ _).2.2]
        exact hst m
      · rw [if_neg hm]
        exact hst m
  unfold applyFactors
  apply step (fun ix => scaleIn f ix) (fun ix L => ⟨rfl, rfl, rfl⟩)
  exact step (fun ix => scaleOut (fun c => (f c)⁻¹) ix) (fun ix L => ⟨rfl, rfl, rfl⟩) _ _ (fun m => ⟨rfl, rfl, rfl⟩)

theorem applyFactors_consistent (hg : Plain g) {r : Region} {S : ℕ → Prop} (hc : Closed g store r S)
    (hk : ∀ s ∈ r.sinks, inputAxisIsOutput (store s.1).kind ≠ none) (f : ℕ → K) (hf : ∀ c, 0 < f c)
    [DecidablePred S] :
    Consistent store (applyFactors f r store) (fun n c => if S n then f c else 1) g := by
  refine ⟨?_, ?_⟩
  · intro n c
    dsimp only
    split_ifs
    · exact hf c
    · exact one_pos
  intro n nd hnd
  have hlt : n < g.length := by
    by_contra hcon
    rw [List.getElem?_eq_none (by omega)] at hnd
    cases hnd
  have hnode : nodeAt g n = nd := by
    unfold nodeAt
    rw [List.getD_eq_getElem?_getD, hnd]
    rfl
  have hunary : (∀ k, nd.op ≠ .add k) → (∀ k, nd.op ≠ .input k) → ∃ i, nd.ins = [i] := by
    intro h1 h2
    have := hg.unary n hlt
    rw [hnode] at this
    exact this h1 h2
  have hown := hc.own n
  have huser := fun i (hi : S i) => hc.user i n hi hlt
  rw [hnode] at hown huser
  unfold NodeConsistent
  cases hop : nd.op with
  | input k =>
    rw [hop] at hown
    intro c
    exact if_neg (fun h => hown h)
  | module m =>
    rw [hop] at hown huser
    dsimp only at hown huser ⊢
    obtain ⟨i, hins⟩ := hunary (by simp [hop]) (by simp [hop])
    rw [hins] at huser ⊢
    have hopn : (nodeAt g n).op = .module m := by rw [hnode, hop]
    have hsrc : S n ↔ ∃ ix, (m, ix) ∈ r.srcs := by
      constructor
      · intro h
        exact ⟨_, hown h⟩
      · rintro ⟨ix, h⟩
        obtain ⟨_, n', h1, h2⟩ := hc.src m ix h
        rwa [hg.once n n' m hopn h1]
    have hsink : S i ↔ ∃ ix, (m, ix) ∈ r.sinks := by
      constructor
      · intro h
        exact ⟨_, huser i h (by simp)⟩
      · rintro ⟨ix, h⟩
        obtain ⟨_, _, n', u, h1, h2, h3⟩ := hc.sink m ix h
        rw [← hg.once n n' m hopn h1, hnode, hins] at h2
        simp only [List.mem_singleton] at h2
        rwa [← h2]
    have hsn : (r.srcs.map Prod.fst).Nodup := names_nodup hc.srcsNodup (fun m ix h => (hc.src m ix h).1)
    have hkn : (r.sinks.map Prod.fst).Nodup := names_nodup hc.sinksNodup (fun m ix h => (hc.sink m ix h).1)
    -- the source part of the update
    have h1 : ∃ L1 : Layer K, r.srcs.foldl (fun st s => updateStore st s.1 (scaleOut (fun c => (f c)⁻¹) s.2)) store m = L1 ∧
        L1.kind = (store m).kind ∧ L1.outCh = (store m).outCh ∧ L1.inCh = (store m).inCh ∧ L1.taps = (store m).taps ∧
        L1.tap = (store m).tap ∧ L1.normalise = (store m).normalise ∧
        (∀ o i t, L1.w o i t * (if S n then f o else 1) = (store m).w o i t) ∧
        (∀ o, L1.biasAt o * (if S n then f o else 1) = (store m).biasAt o) := by
      obtain ⟨e1, e2⟩ := foldl_updateStore (fun ix => scaleOut (fun c => (f c)⁻¹) ix) r.srcs store hsn m
      by_cases hS : S n
      · have hmem := hown hS
        refine ⟨_, e1 _ hmem, rfl, rfl, rfl, rfl, rfl, rfl, ?_, ?_⟩
        · intro o i t
          rw [if_pos hS]
          simp only [scaleOut, Nat.zero_add]
          rw [mul_assoc, inv_mul_cancel₀ (hf o).ne', mul_one]
        · intro o
          rw [if_pos hS]
          simp only [scaleOut, Layer.biasAt, Nat.zero_add]
          cases (store m).b with
          | none => simp
          | some b =>
            simp only [Option.map_some]
            rw [mul_assoc, inv_mul_cancel₀ (hf o).ne', mul_one]
      · refine ⟨_, e2 (fun ix h => hS (hsrc.2 ⟨ix, h⟩)), rfl, rfl, rfl, rfl, rfl, rfl, ?_, ?_⟩
        · intro o i t
          rw [if_neg hS, mul_one]
        · intro o
          rw [if_neg hS, mul_one]
    obtain ⟨L1, hL1, k1, k2, k3, k4, k5, k6, k7, k8⟩ := h1
    obtain ⟨e1, e2⟩ := foldl_updateStore (fun ix => scaleIn f ix) r.sinks
      (r.srcs.foldl (fun st s => updateStore st s.1 (scaleOut (fun c => (f c)⁻¹) s.2)) store) hkn m
    rw [hL1] at e1 e2
    by_cases hSi : S i
    · have hmem := huser i hSi (by simp)
      have happ : applyFactors f r store m = scaleIn f ⟨0, sinkChannels (store m), 0⟩ L1 := e1 _ hmem
      rw [happ]
      have hnorm := (hc.sink m _ hmem).2.1
      have haxis := hk _ hmem
      dsimp only at haxis
      refine ⟨k1, k2, k3, k4, k5, k6, ?_, fun o _ => k8 o, fun h => absurd h hnorm⟩
      intro _ o j t ho hj _
      have hl : labIn (fun n c => if S n then f c else 1) [i] ((store m).reads o j) = f ((store m).reads o j) :=
        if_pos hSi
      rw [hl, ← k7 o j t]
      simp only [scaleIn]
      rw [k1]
      have hps : partialScaling f ⟨0, sinkChannels (store m), 0⟩
          (if inputAxisIsOutput (store m).kind = some true then o else j) = f ((store m).reads o j) := by
        unfold partialScaling sinkChannels Layer.reads
        cases hkind : (store m).kind with
        | dense => simp [inputAxisIsOutput, hj]
        | depthwise => simp [inputAxisIsOutput, ho]
        | grouped n =>
          rw [hkind] at haxis
          exact absurd rfl haxis
        | norm => exact absurd hkind hnorm
      rw [hps]
      ring
    · have happ : applyFactors f r store m = L1 := e2 (fun ix h => hSi (hsink.2 ⟨ix, h⟩))
      rw [happ]
      have hl : ∀ c, labIn (fun n c => if S n then f c else 1) [i] c = 1 := fun c => if_neg hSi
      refine ⟨k1, k2, k3, k4, k5, k6, ?_, fun o _ => k8 o, ?_⟩
      · intro _ o j t _ _ _
        rw [hl, mul_one]
        exact k7 o j t
      · intro _
        exact ⟨hl, fun o _ => k7 o 0 0⟩
  | act a =>
    rw [hop] at hown huser
    dsimp only at hown huser ⊢
    obtain ⟨i, hins⟩ := hunary (by simp [hop]) (by simp [hop])
    rw [hins] at hown huser ⊢
    intro c
    have : S n ↔ S i := ⟨fun h => hown h i (by simp), fun h => huser i h (by simp)⟩
    simp only [labIn, this]
  | add k =>
    rw [hop] at hown huser
    dsimp only at hown huser ⊢
    refine ⟨?_, ?_⟩
    · intro i hi c
      have : S i ↔ S n := ⟨fun h => huser i h hi, fun h => hown h i hi⟩
      simp only [this]
    · left
      have : k = none := hg.noConst n k (by rw [hnode, hop])
      rw [this]
      rfl
  | mul => exact absurd (by rw [hnode, hop]) (hg.noMul n)
  | cat sz => exact absurd (by rw [hnode, hop]) (hg.noCat n sz)
  | other h =>
    rw [hop] at hown huser
    obtain ⟨i, hins⟩ := hunary (by simp [hop]) (by simp [hop])
    rw [hins] at huser ⊢
    exact ⟨fun c => if_neg (fun h => huser i h (by simp)), fun c => if_neg (fun h => hown h)⟩
  | output =>
    rw [hop] at hown huser
    obtain ⟨i, hins⟩ := hunary (by simp [hop]) (by simp [hop])
    rw [hins] at huser ⊢
    exact ⟨fun c => if_neg (fun h => huser i h (by simp)), fun c => if_neg (fun h => hown h)⟩

end Brevitas.Equalize
