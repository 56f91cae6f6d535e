import Verif.Lemmas.Equalize
import Verif.Spec.Concat

/-!
The walk of `Model/Equalize.lean` through networks with concatenations: every node is met with the position of its first channel in the region.
-/

set_option linter.unusedSectionVars false

namespace Brevitas.Equalize

open Net

variable {K : Type*} [Field K] [LinearOrder K] [IsStrictOrderedRing K] [FloorRing K]

variable {g : Graph K} {store : ℕ → Layer K} {part : ℕ → ℕ}

/-- Nodes that a walk goes through. -/
def Live (g : Graph K) (n : ℕ) : Prop :=
  match (nodeAt g n).op with
  | .module _ | .act _ | .add _ | .cat _ => True
  | _ => False

/-- Nodes of which all edges that concern the region have been walked. -/
def Reg (g : Graph K) (st : WState) (n : ℕ) : Prop :=
  match (nodeAt g n).op with
  | .module _ => Expanded g st n
  | .act _ | .add _ | .cat _ => Expanded g st n ∧ Pulled g st n
  | _ => False

def CTarget (g : Graph K) (store : ℕ → Layer K) (part O : ℕ → ℕ) (st : WState) (u v : ℕ) : Prop :=
  match (nodeAt g v).op with
  | .module m => if (store m).kind = .norm then st.unsupported = true else (m, (⟨0, sinkChannels (store m), O (part u)⟩ : EqIdx)) ∈ st.sinks
  | .act _ | .add _ | .cat _ => Expanded g st v ∧ Pulled g st v
  | .mul => False
  | _ => st.unsupported = true

def CSource (g : Graph K) (store : ℕ → Layer K) (part O : ℕ → ℕ) (st : WState) (u : ℕ) : Prop :=
  match (nodeAt g u).op with
  | .module m => Expanded g st u ∧ (m, (⟨0, (store m).outCh, O (part u)⟩ : EqIdx)) ∈ st.srcs
  | .act _ | .add _ | .cat _ => Expanded g st u ∧ Pulled g st u
  | .mul => False
  | _ => st.unsupported = true

theorem CTarget.mono {O : ℕ → ℕ} {a b : WState} (h : Le a b) {u v : ℕ} (hn : CTarget g store part O a u v) : CTarget g store part O b u v := by
  unfold CTarget at hn ⊢
  cases hop : (nodeAt g v).op <;> rw [hop] at hn <;> dsimp only at hn ⊢
  · exact h.uns hn
  · split_ifs at hn ⊢ with hk
    · exact h.uns hn
    · exact h.sinks _ hn
  · exact ⟨hn.1.mono h, hn.2.mono h⟩
  · exact ⟨hn.1.mono h, hn.2.mono h⟩
  · exact ⟨hn.1.mono h, hn.2.mono h⟩
  · exact h.uns hn
  · exact h.uns hn

theorem CSource.mono {O : ℕ → ℕ} {a b : WState} (h : Le a b) {u : ℕ} (hn : CSource g store part O a u) : CSource g store part O b u := by
  unfold CSource at hn ⊢
  cases hop : (nodeAt g u).op <;> rw [hop] at hn <;> dsimp only at hn ⊢
  · exact h.uns hn
  · exact ⟨hn.1.mono h, h.srcs _ hn.2⟩
  · exact ⟨hn.1.mono h, hn.2.mono h⟩
  · exact ⟨hn.1.mono h, hn.2.mono h⟩
  · exact ⟨hn.1.mono h, hn.2.mono h⟩
  · exact h.uns hn
  · exact h.uns hn

theorem CSource.reg {O : ℕ → ℕ} {st : WState} {u : ℕ} (h : CSource g store part O st u) (hl : Live g u) : Reg g st u := by
  unfold CSource at h
  unfold Live at hl
  unfold Reg
  cases hop : (nodeAt g u).op <;> rw [hop] at h hl <;> dsimp only at h hl ⊢
  · exact h.1
  · exact h
  · exact h
  · exact h

theorem Reg.expanded {st : WState} {n : ℕ} (h : Reg g st n) : Expanded g st n := by
  unfold Reg at h
  cases hop : (nodeAt g n).op <;> rw [hop] at h <;> dsimp only at h
  · exact h
  · exact h.1
  · exact h.1
  · exact h.1

theorem Reg.pulled {st : WState} {n : ℕ} (h : Reg g st n) (hm : ∀ m, (nodeAt g n).op ≠ .module m) : Pulled g st n := by
  unfold Reg at h
  cases hop : (nodeAt g n).op <;> rw [hop] at h <;> dsimp only at h
  · exact absurd hop (hm _)
  · exact h.2
  · exact h.2
  · exact h.2

/-- What holds of the state at every moment of a walk: `O` is the position of the first channel of the nodes of a part, `n0` the layer the walk started from, if it started from a layer. -/
structure CInv (g : Graph K) (store : ℕ → Layer K) (part O : ℕ → ℕ) (n0 : Option ℕ) (st : WState) : Prop where
  edge : ∀ u v, (u, v) ∈ st.history → u ∈ (nodeAt g v).ins
  src : ∀ m ix, (m, ix) ∈ st.srcs → ∃ n, (nodeAt g n).op = .module m ∧ ix = ⟨0, (store m).outCh, O (part n)⟩ ∧ (n0 = some n ∨ ∃ v, (n, v) ∈ st.history)
  sink : ∀ m ix, (m, ix) ∈ st.sinks → (store m).kind ≠ .norm ∧
    ∃ n u, (nodeAt g n).op = .module m ∧ (u, n) ∈ st.history ∧ ix = ⟨0, sinkChannels (store m), O (part u)⟩
  srcsNodup : st.srcs.Nodup
  sinksNodup : st.sinks.Nodup

theorem CInv.congr {O : ℕ → ℕ} {n0 : Option ℕ} {a b : WState} (h : CInv g store part O n0 a) (h1 : b.history = a.history) (h2 : b.srcs = a.srcs) (h3 : b.sinks = a.sinks) :
    CInv g store part O n0 b :=
  ⟨h1 ▸ h.edge, by rw [h1, h2]; exact h.src, by rw [h1, h3]; exact h.sink, h2 ▸ h.srcsNodup, h3 ▸ h.sinksNodup⟩

theorem CInv.addEdge {O : ℕ → ℕ} {n0 : Option ℕ} {st : WState} (h : CInv g store part O n0 st) {u v : ℕ} (huv : u ∈ (nodeAt g v).ins) :
    CInv g store part O n0 { st with history := (u, v) :: st.history } where
  edge := by
    intro a b hab
    simp only [List.mem_cons, Prod.mk.injEq] at hab
    rcases hab with ⟨rfl, rfl⟩ | hab
    · exact huv
    · exact h.edge a b hab
  src := by
    intro m ix hm
    obtain ⟨n, h1, h2, h3⟩ := h.src m ix hm
    refine ⟨n, h1, h2, ?_⟩
    rcases h3 with h3 | ⟨w, h3⟩
    · exact Or.inl h3
    · exact Or.inr ⟨w, List.mem_cons_of_mem _ h3⟩
  sink := by
    intro m ix hm
    obtain ⟨h1, n, w, h3, h4, h5⟩ := h.sink m ix hm
    exact ⟨h1, n, w, h3, List.mem_cons_of_mem _ h4, h5⟩
  srcsNodup := h.srcsNodup
  sinksNodup := h.sinksNodup

theorem CInv.addSrc {O : ℕ → ℕ} {n0 : Option ℕ} {st : WState} (h : CInv g store part O n0 st) {n m v : ℕ} (hop : (nodeAt g n).op = .module m) (hv : (n, v) ∈ st.history)
    (ho : st.offset = O (part n)) : CInv g store part O n0 { st with srcs := addKey st.srcs (m, ⟨0, (store m).outCh, st.offset⟩) } := by
  refine ⟨h.edge, ?_, h.sink, nodup_addKey h.srcsNodup _, h.sinksNodup⟩
  intro m' ix hm'
  rcases mem_addKey.1 hm' with hm' | hm'
  · exact h.src m' ix hm'
  · simp only [Prod.mk.injEq] at hm'
    obtain ⟨rfl, rfl⟩ := hm'
    exact ⟨n, hop, by rw [ho], Or.inr ⟨v, hv⟩⟩

theorem CInv.addSink {O : ℕ → ℕ} {n0 : Option ℕ} {st : WState} (h : CInv g store part O n0 st) {n m u : ℕ} (hop : (nodeAt g n).op = .module m) (hk : (store m).kind ≠ .norm)
    (hv : (u, n) ∈ st.history) (ho : st.offset = O (part u)) :
    CInv g store part O n0 { st with sinks := addKey st.sinks (m, ⟨0, sinkChannels (store m), st.offset⟩) } := by
  refine ⟨h.edge, h.src, ?_, h.srcsNodup, nodup_addKey h.sinksNodup _⟩
  intro m' ix hm'
  rcases mem_addKey.1 hm' with hm' | hm'
  · exact h.sink m' ix hm'
  · simp only [Prod.mk.injEq] at hm'
    obtain ⟨rfl, rfl⟩ := hm'
    exact ⟨hk, n, u, hop, hv, by rw [ho]⟩

/-- The edges into concatenations that lie next to a part have been walked. -/
def Guard (g : Graph K) (part : ℕ → ℕ) (p : ℕ) (st : WState) : Prop :=
  ∀ c s u, (nodeAt g c).op = .cat s → u ∈ (nodeAt g c).ins → (part c = p ∨ part u = p) → (u, c) ∈ st.history

theorem Guard.mono {p : ℕ} {a b : WState} (h : Le a b) (hg : Guard g part p a) : Guard g part p b := fun c s u h1 h2 h3 => h.history _ (hg c s u h1 h2 h3)

/-- The parts a concatenation joins. -/
def touched (g : Graph K) (part : ℕ → ℕ) (c : ℕ) : List ℕ := part c :: (nodeAt g c).ins.map part

/-- The whole region of a concatenation has been walked. -/
structure CDone (g : Graph K) (store : ℕ → Layer K) (part : ℕ → ℕ) (c : ℕ) (O : ℕ → ℕ) (st : WState) : Prop where
  inv : CInv g store part O none st
  zero : O (part c) = 0
  sizes : ∃ (s : List ℕ) (ws : List (Option ℕ)), (nodeAt g c).op = .cat s ∧ (none ∉ ws → ws = s.map some) ∧
    (∀ k u, (nodeAt g c).ins[k]? = some u → O (part u) = ((ws.take k).map fun w => w.getD 0).sum) ∧ (none ∈ ws → st.unsupported = true)
  seen : st.catSeen = true
  offset : st.offset = 0
  update : st.updateOffset = false
  all : ∀ e ∈ st.history, CTarget g store part O st e.1 e.2 ∧ CSource g store part O st e.1
  reg : Reg g st c
  parts : ∀ e ∈ st.history, part e.1 ∈ touched g part c

def Done (g : Graph K) (store : ℕ → Layer K) (part : ℕ → ℕ) (st : WState) : Prop := ∃ c O, CDone g store part c O st

theorem Done.down {st : WState} (h : Done g store part st) {n x : ℕ} (hx : Reg g st x) (hm : ∀ m, (nodeAt g x).op ≠ .module m) (hn : n ∈ (nodeAt g x).ins) (hl : Live g n) : Reg g st n := by
  obtain ⟨c, O, hd⟩ := h
  exact (hd.all _ (hx.pulled hm n hn)).2.reg hl

theorem lt_of_mem_ins {n x : ℕ} (h : n ∈ (nodeAt g x).ins) : x < g.length := by
  by_contra hcon
  unfold nodeAt at h
  rw [List.getD_eq_default _ _ (by omega)] at h
  simp at h

theorem Done.up {st : WState} (h : Done g store part st) {n x : ℕ} (hx : Reg g st x) (hn : x ∈ (nodeAt g n).ins)
    (hop : (∃ a, (nodeAt g n).op = .act a) ∨ (∃ k, (nodeAt g n).op = .add k) ∨ ∃ s, (nodeAt g n).op = .cat s) : Reg g st n := by
  obtain ⟨c, O, hd⟩ := h
  have := (hd.all _ (hx.expanded n (mem_users.2 ⟨lt_of_mem_ins hn, hn⟩))).1
  unfold CTarget at this
  unfold Reg
  rcases hop with ⟨a, hop⟩ | ⟨k, hop⟩ | ⟨s, hop⟩ <;> simp only [hop] at this ⊢ <;> exact this

theorem walk_noop_down {st : WState} {n : ℕ} (h : Expanded g st n) (fuel : ℕ) : walk g store (fuel + 1) true n st = some st := by
  unfold walk
  rw [if_pos rfl]
  have : ∀ l : List ℕ, (∀ x ∈ l, (n, x) ∈ st.history) → l.foldlM (visitDown g store (walk g store fuel) st.updateOffset n) st = some st := by
    intro l
    induction l with
    | nil => intro _; rfl
    | cons x l ih =>
      intro hl
      rw [List.foldlM_cons]
      have e : visitDown g store (walk g store fuel) st.updateOffset n st x = some st := by
        unfold visitDown
        rw [if_pos (hl x (by simp))]
      rw [e]
      exact ih fun y hy => hl y (by simp [hy])
  exact this _ h

theorem walk_noop_up {st : WState} {n : ℕ} (h : Pulled g st n) (fuel : ℕ) : walk g store (fuel + 1) false n st = some st := by
  unfold walk
  rw [if_neg (by simp)]
  have : ∀ l : List ℕ, (∀ x ∈ l, (x, n) ∈ st.history) → l.foldlM (visitUp g store (walk g store fuel) st.updateOffset n) st = some st := by
    intro l
    induction l with
    | nil => intro _; rfl
    | cons x l ih =>
      intro hl
      rw [List.foldlM_cons]
      have e : visitUp g store (walk g store fuel) st.updateOffset n st x = some st := by
        unfold visitUp
        rw [if_pos (hl x (by simp))]
      rw [e]
      exact ih fun y hy => hl y (by simp [hy])
  exact this _ fun x hx => h x (mem_inputNodes.1 hx)

def NotCat (g : Graph K) (n : ℕ) : Prop := ∀ s, (nodeAt g n).op ≠ .cat s

def NoAdd (g : Graph K) (part : ℕ → ℕ) (p : ℕ) : Prop := ∀ n k, part n = p → (nodeAt g n).op ≠ .add k

structure CStep (g : Graph K) (store : ℕ → Layer K) (part O : ℕ → ℕ) (n0 : Option ℕ) (st s : WState) : Prop where
  inv : CInv g store part O n0 s
  le : Le st s
  off : s.offset = st.offset
  upd : s.updateOffset = st.updateOffset
  seen : s.catSeen = st.catSeen

structure CDown (g : Graph K) (store : ℕ → Layer K) (part O : ℕ → ℕ) (n0 : Option ℕ) (p n : ℕ) (st s : WState) : Prop extends CStep g store part O n0 st s where
  expanded : Expanded g s n
  new : ∀ e ∈ s.history, e ∉ st.history → part e.1 = p ∧ CTarget g store part O s e.1 e.2 ∧ (CSource g store part O s e.1 ∨ e.1 = n) ∧
    (st.catSeen = false → NotCat g e.1 ∧ NotCat g e.2) ∧ (NoAdd g part p → n ≤ e.1)

structure CUp (g : Graph K) (store : ℕ → Layer K) (part O : ℕ → ℕ) (n0 : Option ℕ) (p n : ℕ) (st s : WState) : Prop extends CStep g store part O n0 st s where
  pulled : Pulled g s n
  new : ∀ e ∈ s.history, e ∉ st.history → part e.1 = p ∧ CTarget g store part O s e.1 e.2 ∧ CSource g store part O s e.1 ∧
    (st.catSeen = false → NotCat g e.1 ∧ NotCat g e.2)

/-- The number of edges a walk may still go along: all of them again if no concatenation was met. -/
def todo (g : Graph K) (st : WState) : ℕ := unvisited g st + if st.catSeen then 0 else (edges g).toFinset.card + 1

/-- The state a walk of part `p` starts from. -/
structure CPre (g : Graph K) (store : ℕ → Layer K) (part O : ℕ → ℕ) (n0 : Option ℕ) (p : ℕ) (st : WState) : Prop where
  inv : CInv g store part O n0 st
  off : st.offset = O p
  guard : st.catSeen = true → Guard g part p st
  upd : st.catSeen = false → st.updateOffset = false

def DSpec (g : Graph K) (store : ℕ → Layer K) (part : ℕ → ℕ) (fuel : ℕ) : Prop :=
  ∀ O n0 p n st, todo g st < fuel → CPre g store part O n0 p st → part n = p → Live g n → (st.catSeen = false → NotCat g n) →
    ∃ st', walk g store fuel true n st = some st' ∧ (CDown g store part O n0 p n st st' ∨ (st.catSeen = false ∧ Done g store part st' ∧ Reg g st' n))

def USpec (g : Graph K) (store : ℕ → Layer K) (part : ℕ → ℕ) (fuel : ℕ) : Prop :=
  ∀ O n0 p n st, todo g st < fuel → CPre g store part O n0 p st → part n = p → st.updateOffset = false → Expanded g st n →
    ((∃ a, (nodeAt g n).op = .act a) ∨ ∃ k, (nodeAt g n).op = .add k) →
    ∃ st', walk g store fuel false n st = some st' ∧ (CUp g store part O n0 p n st st' ∨ (st.catSeen = false ∧ Done g store part st' ∧ Reg g st' n))

theorem unvisited_le (g : Graph K) (st : WState) : unvisited g st ≤ (edges g).toFinset.card := Finset.card_le_card Finset.sdiff_subset

theorem le_of_eq_fields {a b : WState} (h1 : b.history = a.history) (h2 : b.srcs = a.srcs) (h3 : b.sinks = a.sinks) (h4 : b.unsupported = a.unsupported) : Le a b :=
  ⟨fun _ h => h1 ▸ h, fun _ h => h2 ▸ h, fun _ h => h3 ▸ h, fun h => h4 ▸ h⟩

theorem inputNodes_of_nodup {n : ℕ} (h : (nodeAt g n).ins.Nodup) : inputNodes g n = (nodeAt g n).ins := by
  unfold inputNodes
  generalize (nodeAt g n).ins = l at h
  induction l with
  | nil => rfl
  | cons a l ih =>
    rw [List.nodup_cons] at h
    rw [List.eraseDups_cons, List.filter_eq_self.2, ih h.2]
    intro b hb
    simp only [Bool.not_eq_true', beq_eq_false_iff_ne, ne_eq]
    rintro rfl
    exact h.1 hb

/-- Visiting an operand of a concatenation moves the offset by the number of channels of the operand. -/
theorem branch_visit (hg : Concats g store part) {O : ℕ → ℕ} {p x : ℕ} {w : Option ℕ} (hb : Branch g store x w) : ∀ (f y : ℕ) (st : WState),
    (∀ f' ≤ f, DSpec g store part f') → part x = p → x ∈ (nodeAt g y).ins → (∀ e ∈ st.history, part e.1 = p → x < e.1) →
    ((∃ m, (nodeAt g x).op = .module m) ∨ NoAdd g part p) → CInv g store part O none st → st.catSeen = true → st.updateOffset = true → st.offset = O p →
    Guard g part p { st with history := (x, y) :: st.history } → unvisited g st ≤ f →
    ∃ st', visitUp g store (walk g store f) true y st x = some st' ∧ CInv g store part O none st' ∧ Le st st' ∧ (x, y) ∈ st'.history ∧ st'.catSeen = true ∧
      st'.updateOffset = true ∧ st'.offset = O p + w.getD 0 ∧ (w = none → st'.unsupported = true) ∧
      ∀ e ∈ st'.history, e ∉ st.history → part e.1 = p ∧ (CTarget g store part O st' e.1 e.2 ∨ e.2 = y) ∧ CSource g store part O st' e.1 := by
  have opaque_ : ∀ x, ((∃ k, (nodeAt g x).op = .input k) ∨ ∃ h, (nodeAt g x).op = .other h) → ∀ (f y : ℕ) (st : WState), part x = p → x ∈ (nodeAt g y).ins →
      (x, y) ∉ st.history → CInv g store part O none st → st.catSeen = true → st.updateOffset = true → st.offset = O p →
      ∃ st', visitUp g store (walk g store f) true y st x = some st' ∧ CInv g store part O none st' ∧ Le st st' ∧ (x, y) ∈ st'.history ∧ st'.catSeen = true ∧
      st'.updateOffset = true ∧ st'.offset = O p + (none : Option ℕ).getD 0 ∧ ((none : Option ℕ) = none → st'.unsupported = true) ∧
      ∀ e ∈ st'.history, e ∉ st.history → part e.1 = p ∧ (CTarget g store part O st' e.1 e.2 ∨ e.2 = y) ∧ CSource g store part O st' e.1 := by
    intro x hop f y st hp hin hne hinv hseen hupd hoff
    have e : visitUp g store (walk g store f) true y st x = some { st with history := (x, y) :: st.history, unsupported := true } := by
      unfold visitUp
      rw [if_neg hne]
      rcases hop with ⟨k, hop⟩ | ⟨h, hop⟩ <;> simp only [hop]
    refine ⟨_, e, ?_, ?_, by simp, hseen, hupd, by simpa using hoff, fun _ => rfl, ?_⟩
    · exact (hinv.addEdge hin).congr rfl rfl rfl
    · exact ⟨fun _ h => List.mem_cons_of_mem _ h, fun _ h => h, fun _ h => h, fun _ => rfl⟩
    · intro e he hne
      simp only [List.mem_cons] at he
      rcases he with rfl | he
      · refine ⟨hp, Or.inr rfl, ?_⟩
        unfold CSource
        rcases hop with ⟨k, hop⟩ | ⟨h, hop⟩ <;> simp only [hop]
      · exact absurd he hne
  induction hb with
  | input n k h =>
    intro f y st _ hp hin hlt _ hinv hseen hupd hoff _ _
    exact opaque_ n (Or.inl ⟨k, h⟩) f y st hp hin (fun hm => absurd (hlt _ hm hp) (lt_irrefl _)) hinv hseen hupd hoff
  | other n h0 h =>
    intro f y st _ hp hin hlt _ hinv hseen hupd hoff _ _
    exact opaque_ n (Or.inr ⟨h0, h⟩) f y st hp hin (fun hm => absurd (hlt _ hm hp) (lt_irrefl _)) hinv hseen hupd hoff
  | layer x m hop =>
    intro f y st hD hp hin hlt _ hinv hseen hupd hoff hguard hun
    have hmem : (x, y) ∉ st.history := fun hm => absurd (hlt _ hm hp) (lt_irrefl _)
    set s1 : WState := { st with history := (x, y) :: st.history } with hs1
    have hi1 : CInv g store part O none s1 := hinv.addEdge hin
    have hle1 : Le st s1 := le_addEdge st _
    have hf1 : unvisited g s1 < f := by
      have := unvisited_lt (g := g) hle1 (mem_edges.2 hin) hmem (by simp [hs1])
      omega
    set s1' : WState := { s1 with srcs := addKey s1.srcs (m, ⟨0, (store m).outCh, s1.offset⟩) } with hs1'
    have hi1' : CInv g store part O none s1' := hi1.addSrc hop (v := y) (by simp [hs1]) (by rw [hp]; exact hoff)
    have hle1' : Le s1 s1' := ⟨fun _ h => h, fun _ h => mem_addKey.2 (Or.inl h), fun _ h => h, fun h => h⟩
    have hseen' : s1'.catSeen = true := hseen
    obtain ⟨s2, h2, p2⟩ := hD f le_rfl O none p x s1' (by unfold todo; rw [hseen', if_pos rfl]; exact hf1) ⟨hi1', hoff, fun _ => hguard, by rw [hseen']; nofun⟩ hp (by unfold Live; rw [hop]; trivial)
      (by rw [hseen']; nofun)
    rcases p2 with p2 | ⟨p2, _⟩
    swap
    · rw [hseen'] at p2
      cases p2
    have hu2 : s2.updateOffset = true := p2.upd.trans hupd
    set s3 : WState := { s2 with offset := s2.offset + (store m).outCh } with hs3
    have hle3 : Le s2 s3 := le_of_eq_fields rfl rfl rfl rfl
    have hS : CSource g store part O s3 x := by
      unfold CSource
      simp only [hop]
      refine ⟨p2.expanded.mono hle3, hle3.srcs _ (p2.le.srcs _ (mem_addKey.2 (Or.inr ?_)))⟩
      rw [hp, ← hoff]
    refine ⟨s3, ?_, ?_, ?_, ?_, ?_, ?_, ?_, ?_, ?_⟩
    · unfold visitUp
      rw [if_neg hmem]
      simp only [hop]
      rw [show walk g store f true x _ = some s2 from h2]
      simp only [Option.bind_eq_bind, Option.bind_some, pure, hu2, if_true, hs3]
    · exact p2.inv.congr rfl rfl rfl
    · exact hle1.trans (hle1'.trans (p2.le.trans hle3))
    · exact hle3.history _ (p2.le.history _ (by simp [hs1', hs1]))
    · exact p2.seen.trans hseen
    · exact hu2
    · change s2.offset + (store m).outCh = _
      rw [p2.off]
      change st.offset + _ = _
      rw [hoff]
      rfl
    · nofun
    · intro e he hne
      by_cases he1 : e ∈ s1'.history
      · simp only [hs1', hs1, List.mem_cons] at he1
        rcases he1 with rfl | he1
        · exact ⟨hp, Or.inr rfl, hS⟩
        · exact absurd he1 hne
      · obtain ⟨t1, t2, t3, _⟩ := p2.new e he he1
        refine ⟨t1, Or.inl (t2.mono hle3), ?_⟩
        rcases t3 with t3 | t3
        · exact t3.mono hle3
        · rw [t3]
          exact hS
  | act x i a w hop hins hbi ih =>
    intro f y st hD hp hin hlt hadd hinv hseen hupd hoff hguard hun
    have hadd' : NoAdd g part p := by
      rcases hadd with ⟨m, hadd⟩ | hadd
      · rw [hop] at hadd
        cases hadd
      · exact hadd
    have hmem : (x, y) ∉ st.history := fun hm => absurd (hlt _ hm hp) (lt_irrefl _)
    set s1 : WState := { st with history := (x, y) :: st.history } with hs1
    have hi1 : CInv g store part O none s1 := hinv.addEdge hin
    have hle1 : Le st s1 := le_addEdge st _
    have hf1 : unvisited g s1 < f := by
      have := unvisited_lt (g := g) hle1 (mem_edges.2 hin) hmem (by simp [hs1])
      omega
    have hseen' : s1.catSeen = true := hseen
    obtain ⟨s2, h2, p2⟩ := hD f le_rfl O none p x s1 (by unfold todo; rw [hseen', if_pos rfl]; exact hf1) ⟨hi1, hoff, fun _ => hguard, by rw [hseen']; nofun⟩ hp (by unfold Live; rw [hop]; trivial)
      (by rw [hseen']; nofun)
    rcases p2 with p2 | ⟨p2, _⟩
    swap
    · rw [hseen'] at p2
      cases p2
    have hix : i < x := hg.ordered x i (by rw [hins]; simp)
    have hpi : part i = p := (hg.same x (Or.inl ⟨a, hop⟩) i (by rw [hins]; simp)).trans hp
    obtain ⟨f', rfl⟩ : ∃ f', f = f' + 1 := ⟨f - 1, by omega⟩
    have hle2 : Le s2 { s2 with history := (i, x) :: s2.history } := le_addEdge s2 _
    obtain ⟨s3, h3, q1, q2, q3, q4, q5, q6, q7, q8⟩ := ih f' x s2 (fun f'' h => hD f'' (by omega)) hpi (by rw [hins]; simp)
      (by
        intro e he hpe
        by_cases he1 : e ∈ s1.history
        · simp only [hs1, List.mem_cons] at he1
          rcases he1 with rfl | he1
          · exact hix
          · exact hix.trans (hlt e he1 hpe)
        · exact lt_of_lt_of_le hix ((p2.new e he he1).2.2.2.2 hadd'))
      (Or.inr hadd') p2.inv (p2.seen.trans hseen) (p2.upd.trans hupd) (p2.off.trans hoff) (Guard.mono (p2.le.trans hle2) hguard)
      (by have := unvisited_mono (g := g) p2.le; omega)
    have hexp : Expanded g s3 x := p2.expanded.mono q2
    have hpull : Pulled g s3 x := by
      intro u hu
      rw [hins, List.mem_singleton] at hu
      rw [hu]
      exact q3
    have hT : ∀ u, CTarget g store part O s3 u x := by
      intro u
      unfold CTarget
      simp only [hop]
      exact ⟨hexp, hpull⟩
    have hS : CSource g store part O s3 x := by
      unfold CSource
      simp only [hop]
      exact ⟨hexp, hpull⟩
    refine ⟨s3, ?_, q1, hle1.trans (p2.le.trans q2), q2.history _ (p2.le.history _ (by simp [hs1])), q4, q5, q6, q7, ?_⟩
    · unfold visitUp
      rw [if_neg hmem]
      simp only [hop]
      rw [show walk g store (f' + 1) true x _ = some s2 from h2]
      simp only [Option.bind_eq_bind, Option.bind_some]
      unfold walk
      rw [if_neg (by simp), inputNodes_of_nodup (by rw [hins]; simp), hins, List.foldlM_cons, p2.upd.trans hupd, h3]
      rfl
    · intro e he hne
      by_cases he2 : e ∈ s2.history
      · by_cases he1 : e ∈ s1.history
        · simp only [hs1, List.mem_cons] at he1
          rcases he1 with rfl | he1
          · exact ⟨hp, Or.inr rfl, hS⟩
          · exact absurd he1 hne
        · obtain ⟨t1, t2, t3, _⟩ := p2.new e he2 he1
          refine ⟨t1, Or.inl (t2.mono q2), ?_⟩
          rcases t3 with t3 | t3
          · exact t3.mono q2
          · rw [t3]
            exact hS
      · obtain ⟨t1, t2, t3⟩ := q8 e he he2
        refine ⟨t1, Or.inl ?_, t3⟩
        rcases t2 with t2 | t2
        · exact t2
        · rw [t2]
          exact hT _

theorem branch_widths {P : ℕ → Prop} : ∀ (ins s : List ℕ), List.Forall₂ (fun u n => (Branch g store u (some n) ∨ Branch g store u none) ∧ P u) ins s →
    (∀ u ∈ ins, P u) ∧ ∃ ws : List (Option ℕ), List.Forall₂ (Branch g store) ins ws ∧ (none ∉ ws → ws = s.map some)
  | [], [], _ => ⟨by simp, [], .nil, fun _ => rfl⟩
  | u :: ins, n :: s, h => by
    rw [List.forall₂_cons] at h
    obtain ⟨⟨h1, h2⟩, h3⟩ := h
    obtain ⟨h4, ws, h5, h6⟩ := branch_widths ins s h3
    refine ⟨by simpa using ⟨h2, h4⟩, ?_⟩
    rcases h1 with h1 | h1
    · refine ⟨some n :: ws, .cons h1 h5, ?_⟩
      intro hn
      simp only [List.mem_cons, reduceCtorEq, false_or] at hn
      rw [h6 hn]
      rfl
    · refine ⟨none :: ws, .cons h1 h5, ?_⟩
      intro hn
      simp at hn
  | [], _ :: _, h => by cases h
  | _ :: _, [], h => by cases h

/-- The handler of a concatenation walks its whole region. -/
theorem catHandler_spec (hg : Concats g store part) {c : ℕ} {s : List ℕ} (hop : (nodeAt g c).op = .cat s) (f : ℕ) (hD : ∀ f' ≤ f, DSpec g store part f') (hE : (edges g).toFinset.card < f) :
    ∃ st O, catHandler (walk g store f) c = some st ∧ CDone g store part c O st := by
  obtain ⟨hlayer, ws, hws, hsz⟩ := branch_widths (g := g) (store := store)
    (P := fun u => (∃ m, (nodeAt g u).op = .module m) ∨ ∀ n k, part n = part u → (nodeAt g n).op ≠ .add k) _ _ (hg.branch c s hop)
  have hnd := hg.distinct c s hop
  rw [List.nodup_cons] at hnd
  obtain ⟨hpc, hndm⟩ := hnd
  have hnd : (nodeAt g c).ins.Nodup := hndm.of_map
  set O : ℕ → ℕ := fun q => if q ∈ (nodeAt g c).ins.map part then ((ws.take (((nodeAt g c).ins.map part).idxOf q)).map fun w => w.getD 0).sum else 0 with hO
  have hOc : O (part c) = 0 := by
    simp only [hO]
    rw [if_neg hpc]
  have hOk : ∀ k u, (nodeAt g c).ins[k]? = some u → O (part u) = ((ws.take k).map fun w => w.getD 0).sum := by
    intro k u hk
    have hmem : part u ∈ (nodeAt g c).ins.map part := List.mem_map.2 ⟨u, List.mem_of_getElem? hk, rfl⟩
    obtain ⟨hklt, hku⟩ := List.getElem?_eq_some_iff.1 hk
    have hidx : ((nodeAt g c).ins.map part).idxOf (part u) = k := by
      have h1 : k < ((nodeAt g c).ins.map part).length := by simpa using hklt
      have h2 : ((nodeAt g c).ins.map part)[k] = part u := by simp [hku]
      rw [← h2]
      exact hndm.idxOf_getElem k h1
    simp only [hO]
    rw [if_pos hmem, hidx]
  have guardOf : ∀ (p : ℕ) (st : WState), p ∈ touched g part c → (∀ u ∈ (nodeAt g c).ins, (part c = p ∨ part u = p) → (u, c) ∈ st.history) → Guard g part p st := by
    intro p st hp h c' s' u hop' hu hor
    have : c' = c := by
      refine hg.apart c' c s' s hop' hop p ?_ hp
      rcases hor with h | h
      · rw [← h]
        simp
      · rw [← h]
        exact List.mem_cons_of_mem _ (List.mem_map.2 ⟨u, hu, rfl⟩)
    subst this
    exact h u hu hor
  obtain ⟨f', rfl⟩ : ∃ f', f = f' + 1 := ⟨f - 1, by omega⟩
  -- the operands, one after the other
  have fold : ∀ (rest done : List ℕ) (wr wd : List (Option ℕ)) (st : WState), (nodeAt g c).ins = done ++ rest → ws = wd ++ wr → wd.length = done.length →
      List.Forall₂ (Branch g store) rest wr → CInv g store part O none st → st.catSeen = true → st.updateOffset = true → st.offset = (wd.map fun w => w.getD 0).sum →
      (∀ u ∈ done, (u, c) ∈ st.history) →
      (∀ e ∈ st.history, part e.1 ∈ done.map part ∧ (CTarget g store part O st e.1 e.2 ∨ e.2 = c) ∧ CSource g store part O st e.1) → (none ∈ wd → st.unsupported = true) →
      ∃ st', rest.foldlM (visitUp g store (walk g store f') true c) st = some st' ∧ CInv g store part O none st' ∧ st'.catSeen = true ∧
        (∀ u ∈ (nodeAt g c).ins, (u, c) ∈ st'.history) ∧
        (∀ e ∈ st'.history, part e.1 ∈ (nodeAt g c).ins.map part ∧ (CTarget g store part O st' e.1 e.2 ∨ e.2 = c) ∧ CSource g store part O st' e.1) ∧
        (none ∈ ws → st'.unsupported = true) := by
    intro rest
    induction rest with
    | nil =>
      intro done wr wd st h1 h2 h3 h4 h5 h6 h7 h8 h9 h10 h11
      cases h4
      simp only [List.append_nil] at h1 h2
      rw [h1, h2]
      exact ⟨st, rfl, h5, h6, h9, h10, h11⟩
    | cons u rest ih =>
      intro done wr wd st h1 h2 h3 h4 h5 h6 h7 h8 h9 h10 h11
      cases h4 with
      | cons hb hrest =>
      rename_i w wr'
      have hu : u ∈ (nodeAt g c).ins := by rw [h1]; simp
      have hk : (nodeAt g c).ins[done.length]? = some u := by
        rw [h1, List.getElem?_append_right (le_refl _)]
        simp
      have hOu : O (part u) = (wd.map fun w => w.getD 0).sum := by
        rw [hOk _ u hk, h2, ← h3, List.take_left]
      have hnew : part u ∉ done.map part := by
        rw [h1, List.map_append, List.map_cons, List.nodup_append] at hndm
        intro hmem
        exact hndm.2.2 _ hmem _ (by simp) rfl
      have hpu : part u ∈ touched g part c := List.mem_cons_of_mem _ (List.mem_map.2 ⟨u, hu, rfl⟩)
      obtain ⟨s1, e1, q1, q2, q3, q4, q5, q6, q7, q8⟩ := branch_visit hg (O := O) (p := part u) hb f' c st (fun f'' h => hD f'' (by omega)) rfl hu
        (fun e he hpe => absurd (hpe ▸ (h10 e he).1) hnew) (hlayer u hu) h5 h6 h7 (by rw [h8, hOu])
        (guardOf _ _ hpu (by
          intro u' hu' hor
          rcases hor with hor | hor
          · exfalso
            apply hpc
            rw [hor]
            exact List.mem_map.2 ⟨u, hu, rfl⟩
          · rw [List.inj_on_of_nodup_map hndm hu' hu hor]
            simp))
        (by have := unvisited_le g st; omega)
      obtain ⟨st', e2, r⟩ := ih (done ++ [u]) wr' (wd ++ [w]) s1 (by rw [h1]; simp) (by rw [h2]; simp) (by simp [h3]) hrest q1 q4 q5 (by rw [q6, hOu]; simp)
        (by
          intro v hv
          rw [List.mem_append, List.mem_singleton] at hv
          rcases hv with hv | rfl
          · exact q2.history _ (h9 v hv)
          · exact q3)
        (by
          intro e he
          by_cases he1 : e ∈ st.history
          · obtain ⟨t1, t2, t3⟩ := h10 e he1
            refine ⟨by rw [List.map_append]; exact List.mem_append_left _ t1, t2.imp (fun h => h.mono q2) id, t3.mono q2⟩
          · obtain ⟨t1, t2, t3⟩ := q8 e he he1
            exact ⟨by rw [t1]; simp, t2, t3⟩)
        (by
          intro hm
          rw [List.mem_append, List.mem_singleton] at hm
          rcases hm with hm | hm
          · exact q2.uns (h11 hm)
          · exact q7 hm.symm)
      refine ⟨st', ?_, r⟩
      rw [List.foldlM_cons, e1]
      exact e2
  obtain ⟨s2, e2, r1, r2, r3, r4, r5⟩ := fold _ [] ws [] { catSeen := true, updateOffset := true } rfl rfl rfl hws ⟨by simp, by simp, by simp, by simp, by simp⟩ rfl rfl rfl (by simp)
    (by simp) (by simp)
  set s2' : WState := { s2 with updateOffset := false, offset := 0 } with hs2'
  have hle2 : Le s2 s2' := le_of_eq_fields rfl rfl rfl rfl
  have hseen : s2'.catSeen = true := r2
  obtain ⟨s3, e3, p3⟩ := hD (f' + 1) le_rfl O none (part c) c s2' (by unfold todo; rw [hseen, if_pos rfl]; have := unvisited_le g s2'; omega)
    ⟨r1.congr rfl rfl rfl, hOc.symm, fun _ => guardOf _ _ (by simp [touched]) (fun u hu _ => r3 u hu), by rw [hseen]; nofun⟩ rfl (by unfold Live; rw [hop]; trivial) (by rw [hseen]; nofun)
  rcases p3 with p3 | ⟨p3, _⟩
  swap
  · rw [hseen] at p3
    cases p3
  have hpull : Pulled g s3 c := fun u hu => p3.le.history _ (r3 u hu)
  have hT : ∀ u, CTarget g store part O s3 u c := by
    intro u
    unfold CTarget
    simp only [hop]
    exact ⟨p3.expanded, hpull⟩
  have hS : CSource g store part O s3 c := by
    unfold CSource
    simp only [hop]
    exact ⟨p3.expanded, hpull⟩
  refine ⟨s3, O, ?_, ?_⟩
  · unfold catHandler
    have e0 : walk g store (f' + 1) false c { catSeen := true, updateOffset := true } = some s2 := by
      unfold walk
      rw [if_neg (by simp), inputNodes_of_nodup hnd]
      exact e2
    rw [e0]
    simp only [Option.bind_eq_bind, Option.bind_some]
    exact e3
  · refine ⟨p3.inv, hOc, ⟨s, ws, hop, hsz, hOk, fun h => p3.le.uns (r5 h)⟩, p3.seen.trans hseen, p3.off, p3.upd, ?_, ?_, ?_⟩
    · intro e he
      by_cases he2 : e ∈ s2'.history
      · obtain ⟨_, t2, t3⟩ := r4 e he2
        refine ⟨?_, t3.mono (hle2.trans p3.le)⟩
        rcases t2 with t2 | t2
        · exact t2.mono (hle2.trans p3.le)
        · rw [t2]
          exact hT _
      · obtain ⟨_, t2, t3, _⟩ := p3.new e he he2
        refine ⟨t2, ?_⟩
        rcases t3 with t3 | t3
        · exact t3
        · rw [t3]
          exact hS
    · unfold Reg
      simp only [hop]
      exact ⟨p3.expanded, hpull⟩
    · intro e he
      by_cases he2 : e ∈ s2'.history
      · exact List.mem_cons_of_mem _ (r4 e he2).1
      · rw [(p3.new e he he2).1]
        simp [touched]

theorem CPre.congr {O : ℕ → ℕ} {n0 : Option ℕ} {p : ℕ} {a b : WState} (h : CPre g store part O n0 p a) (hs : CStep g store part O n0 a b) : CPre g store part O n0 p b :=
  ⟨hs.inv, hs.off.trans h.off, fun hc => (h.guard (hs.seen ▸ hc)).mono hs.le, fun hc => hs.upd.trans (h.upd (hs.seen ▸ hc))⟩

theorem todo_mono {a b : WState} (h : Le a b) (hs : b.catSeen = a.catSeen) : todo g b ≤ todo g a := by
  unfold todo
  rw [hs]
  have := unvisited_mono (g := g) h
  omega

theorem walk_cat_spec (hg : Concats g store part) : ∀ fuel : ℕ, DSpec g store part fuel ∧ USpec g store part fuel := by
  intro fuel
  induction fuel using Nat.strong_induction_on with
  | _ fuel ih =>
  cases fuel with
  | zero =>
    constructor
    · intro O n0 p n st h
      omega
    · intro O n0 p n st h
      omega
  | succ fuel =>
    obtain ⟨ihD, ihU⟩ := ih fuel (by omega)
    have ihAll : ∀ f' ≤ fuel, DSpec g store part f' := fun f' h => (ih f' (by omega)).1
    -- both directions out of a node with no weights
    have both : ∀ O n0 p x st, todo g st < fuel → CPre g store part O n0 p st → part x = p → st.updateOffset = false →
        ((∃ a, (nodeAt g x).op = .act a) ∨ ∃ k, (nodeAt g x).op = .add k) →
        ∃ s2 s3, walk g store fuel true x st = some s2 ∧ walk g store fuel false x s2 = some s3 ∧
          ((CStep g store part O n0 st s3 ∧ Expanded g s3 x ∧ Pulled g s3 x ∧
            ∀ e ∈ s3.history, e ∉ st.history → part e.1 = p ∧ CTarget g store part O s3 e.1 e.2 ∧ CSource g store part O s3 e.1 ∧
              (st.catSeen = false → NotCat g e.1 ∧ NotCat g e.2)) ∨
          (st.catSeen = false ∧ Done g store part s3 ∧ Reg g s3 x)) := by
      intro O n0 p x st hf hpre hp hupd hop
      have hlive : Live g x := by
        unfold Live
        rcases hop with ⟨a, hop⟩ | ⟨k, hop⟩ <;> rw [hop] <;> trivial
      have hnc : NotCat g x := by
        intro s hs
        rcases hop with ⟨a, hop⟩ | ⟨k, hop⟩ <;> rw [hop] at hs <;> cases hs
      have hnm : ∀ m, (nodeAt g x).op ≠ .module m := by
        intro m hs
        rcases hop with ⟨a, hop⟩ | ⟨k, hop⟩ <;> rw [hop] at hs <;> cases hs
      obtain ⟨s2, h2, p2⟩ := ihD O n0 p x st hf hpre hp hlive (fun _ => hnc)
      rcases p2 with p2 | ⟨hc, hd, hr⟩
      · obtain ⟨s3, h3, p3⟩ := ihU O n0 p x s2 (lt_of_le_of_lt (todo_mono p2.le p2.seen) hf) (hpre.congr p2.toCStep) hp (p2.upd.trans hupd) p2.expanded hop
        refine ⟨s2, s3, h2, h3, ?_⟩
        rcases p3 with p3 | ⟨hc, hd, hr⟩
        · left
          have hexp := p2.expanded.mono p3.le
          refine ⟨⟨p3.inv, p2.le.trans p3.le, p3.off.trans p2.off, p3.upd.trans p2.upd, p3.seen.trans p2.seen⟩, hexp, p3.pulled, ?_⟩
          intro e he hne
          by_cases he2 : e ∈ s2.history
          · obtain ⟨t1, t2, t3, t4, _⟩ := p2.new e he2 hne
            refine ⟨t1, t2.mono p3.le, ?_, t4⟩
            rcases t3 with t3 | t3
            · exact t3.mono p3.le
            · rw [t3]
              unfold CSource
              rcases hop with ⟨a, hop⟩ | ⟨k, hop⟩ <;> rw [hop] <;> exact ⟨hexp, p3.pulled⟩
          · obtain ⟨t1, t2, t3, t4⟩ := p3.new e he he2
            exact ⟨t1, t2, t3, fun h => t4 (p2.seen.trans h)⟩
        · exact Or.inr ⟨p2.seen ▸ hc, hd, hr⟩
      · obtain ⟨f', rfl⟩ : ∃ f', fuel = f' + 1 := ⟨fuel - 1, by omega⟩
        exact ⟨s2, s2, h2, walk_noop_up (hr.pulled hnm) f', Or.inr ⟨hc, hd, hr⟩⟩
    constructor
    · intro O n0 p n st hfuel hpre hp hlive hnc
      unfold walk
      rw [if_pos rfl]
      have key := foldlM_spec
        (P := fun done s => (CStep g store part O n0 st s ∧ (∀ x ∈ done, (n, x) ∈ s.history) ∧
          ∀ e ∈ s.history, e ∉ st.history → part e.1 = p ∧ CTarget g store part O s e.1 e.2 ∧ (CSource g store part O s e.1 ∨ e.1 = n) ∧
            (st.catSeen = false → NotCat g e.1 ∧ NotCat g e.2) ∧ (NoAdd g part p → n ≤ e.1)) ∨ (st.catSeen = false ∧ Done g store part s ∧ Reg g s n))
        (visitDown g store (walk g store fuel) st.updateOffset n) (users g n) [] st ?_
        (Or.inl ⟨⟨hpre.inv, Le.refl _, rfl, rfl, rfl⟩, by simp, fun e he hne => absurd he hne⟩)
      · obtain ⟨st', h1, h2⟩ := key
        refine ⟨st', h1, ?_⟩
        rcases h2 with ⟨h2, h3, h4⟩ | h2
        · exact Or.inl ⟨h2, by simpa [Expanded] using h3, h4⟩
        · exact Or.inr h2
      · rintro done x s hx (⟨hs, hdone, hnew⟩ | ⟨hc, hd, hr⟩)
        swap
        · refine ⟨s, ?_, Or.inr ⟨hc, hd, hr⟩⟩
          unfold visitDown
          rw [if_pos (hr.expanded x hx)]
        rw [mem_users] at hx
        obtain ⟨hxlt, hxin⟩ := hx
        unfold visitDown
        by_cases hmem : (n, x) ∈ s.history
        · rw [if_pos hmem]
          refine ⟨s, rfl, Or.inl ⟨hs, ?_, hnew⟩⟩
          intro y hy
          rw [List.mem_append, List.mem_singleton] at hy
          rcases hy with hy | rfl
          · exact hdone y hy
          · exact hmem
        · rw [if_neg hmem]
          set s1 : WState := { s with history := (n, x) :: s.history } with hs1
          have hi1 : CInv g store part O n0 s1 := hs.inv.addEdge hxin
          have hle1 : Le s s1 := le_addEdge s _
          have hpre1 : CPre g store part O n0 p s1 :=
            ⟨hi1, hs.off.trans hpre.off, fun hc => (hpre.guard (hs.seen ▸ hc)).mono (hs.le.trans hle1), fun hc => hs.upd.trans (hpre.upd (hs.seen ▸ hc))⟩
          have hf1 : todo g s1 < fuel := by
            have h1 := unvisited_lt (g := g) hle1 (mem_edges.2 hxin) hmem (by simp [hs1])
            have h2 := todo_mono (g := g) hs.le hs.seen
            have h3 : s1.catSeen = s.catSeen := rfl
            unfold todo at h2 hfuel ⊢
            rw [h3]
            omega
          have hnx : n < x := hg.ordered x n hxin
          -- closing a step: it is enough to treat the edges added after `s`
          have close : ∀ s', CStep g store part O n0 s1 s' → CTarget g store part O s' n x → (st.catSeen = false → NotCat g x) →
              (∀ e ∈ s'.history, e ∉ s1.history → part e.1 = p ∧ CTarget g store part O s' e.1 e.2 ∧ CSource g store part O s' e.1 ∧
                (s1.catSeen = false → NotCat g e.1 ∧ NotCat g e.2) ∧ (NoAdd g part p → n ≤ e.1)) →
              (CStep g store part O n0 st s' ∧ (∀ y ∈ done ++ [x], (n, y) ∈ s'.history) ∧
              ∀ e ∈ s'.history, e ∉ st.history → part e.1 = p ∧ CTarget g store part O s' e.1 e.2 ∧ (CSource g store part O s' e.1 ∨ e.1 = n) ∧
                (st.catSeen = false → NotCat g e.1 ∧ NotCat g e.2) ∧ (NoAdd g part p → n ≤ e.1)) ∨ (st.catSeen = false ∧ Done g store part s' ∧ Reg g s' n) := by
            intro s' hs' ht hx hn'
            left
            refine ⟨⟨hs'.inv, hs.le.trans (hle1.trans hs'.le), hs'.off.trans hs.off, hs'.upd.trans hs.upd, hs'.seen.trans hs.seen⟩, ?_, ?_⟩
            · intro y hy
              rw [List.mem_append, List.mem_singleton] at hy
              rcases hy with hy | rfl
              · exact (hle1.trans hs'.le).history _ (hdone y hy)
              · exact hs'.le.history _ (by simp [hs1])
            · intro e he hne
              by_cases he1 : e ∈ s1.history
              · rw [hs1] at he1
                simp only [List.mem_cons] at he1
                rcases he1 with rfl | he1
                · exact ⟨hp, ht, Or.inr rfl, fun hc => ⟨hnc hc, hx hc⟩, fun _ => le_refl _⟩
                · obtain ⟨t1, t2, t3, t4⟩ := hnew e he1 hne
                  exact ⟨t1, t2.mono (hle1.trans hs'.le), t3.imp (fun h => h.mono (hle1.trans hs'.le)) id, t4⟩
              · obtain ⟨t1, t2, t3, t4, t5⟩ := hn' e he he1
                exact ⟨t1, t2, Or.inl t3, fun hc => t4 (hs.seen.trans hc), t5⟩
          have hop_ne : ∀ {s' : Op K}, (nodeAt g x).op = s' → (∀ z, s' ≠ .cat z) → NotCat g x := by
            intro s' h h' z hz
            exact h' z (h ▸ hz)
          have unsupp : ∀ s' : WState, s' = { s1 with unsupported := true } → CTarget g store part O s' n x → NotCat g x →
              (CStep g store part O n0 st s' ∧ (∀ y ∈ done ++ [x], (n, y) ∈ s'.history) ∧
              ∀ e ∈ s'.history, e ∉ st.history → part e.1 = p ∧ CTarget g store part O s' e.1 e.2 ∧ (CSource g store part O s' e.1 ∨ e.1 = n) ∧
                (st.catSeen = false → NotCat g e.1 ∧ NotCat g e.2) ∧ (NoAdd g part p → n ≤ e.1)) ∨ (st.catSeen = false ∧ Done g store part s' ∧ Reg g s' n) := by
            rintro s' rfl ht hx
            apply close
            · exact ⟨hi1.congr rfl rfl rfl, ⟨fun _ h => h, fun _ h => h, fun _ h => h, fun _ => rfl⟩, rfl, rfl, rfl⟩
            · exact ht
            · exact fun _ => hx
            · intro e he hne
              exact absurd he hne
          cases hop : (nodeAt g x).op with
          | module m =>
            dsimp only
            by_cases hk : (store m).kind = .norm
            · rw [if_pos hk]
              exact ⟨_, rfl, unsupp _ rfl (by unfold CTarget; simp only [hop, hk, if_true]) (hop_ne hop (by simp))⟩
            · rw [if_neg hk]
              refine ⟨_, rfl, ?_⟩
              apply close
              · exact ⟨hi1.addSink hop hk (u := n) (by simp [hs1]) (by rw [hp]; exact hpre1.off), ⟨fun _ h => h, fun _ h => h, fun _ h => mem_addKey.2 (Or.inl h), fun h => h⟩, rfl, rfl, rfl⟩
              · unfold CTarget
                simp only [hop]
                rw [if_neg hk]
                refine mem_addKey.2 (Or.inr ?_)
                rw [hp, ← hpre1.off]
              · exact fun _ => hop_ne hop (by simp)
              · intro e he hne
                exact absurd he hne
          | act a =>
            dsimp only
            have hpx : part x = p := (hg.same x (Or.inl ⟨a, hop⟩) n hxin).symm.trans hp
            obtain ⟨s2, h2, p2⟩ := ihD O n0 p x s1 hf1 hpre1 hpx (by unfold Live; rw [hop]; trivial) (fun _ => hop_ne hop (by simp))
            refine ⟨s2, h2, ?_⟩
            rcases p2 with p2 | ⟨hc, hd, hr⟩
            swap
            · exact Or.inr ⟨hs.seen ▸ hc, hd, hd.down hr (by simp [hop]) hxin hlive⟩
            obtain ⟨i, hins⟩ := hg.unary x hxlt (by simp [hop]) (by simp [hop]) (by simp [hop])
            have hni : i = n := by
              rw [hins] at hxin
              simp only [List.mem_singleton] at hxin
              exact hxin.symm
            have hpull : Pulled g s2 x := by
              intro u hu
              rw [hins] at hu
              simp only [List.mem_singleton] at hu
              rw [hu, hni]
              exact p2.le.history _ (by simp [hs1])
            have hT : CTarget g store part O s2 n x := by
              unfold CTarget
              simp only [hop]
              exact ⟨p2.expanded, hpull⟩
            have hS : CSource g store part O s2 x := by
              unfold CSource
              simp only [hop]
              exact ⟨p2.expanded, hpull⟩
            refine close s2 p2.toCStep hT (fun _ => hop_ne hop (by simp)) ?_
            intro e he hne
            obtain ⟨t1, t2, t3, t4, t5⟩ := p2.new e he hne
            refine ⟨t1, t2, ?_, t4, fun h => hnx.le.trans (t5 h)⟩
            rcases t3 with t3 | t3
            · exact t3
            · rw [t3]
              exact hS
          | add k =>
            dsimp only
            have hpx : part x = p := (hg.same x (Or.inr ⟨k, hop⟩) n hxin).symm.trans hp
            set s1' : WState := { s1 with updateOffset := false } with hs1'
            have hle1' : Le s1 s1' := le_of_eq_fields rfl rfl rfl rfl
            have hpre1' : CPre g store part O n0 p s1' := ⟨hi1.congr rfl rfl rfl, hpre1.off, fun hc => hpre1.guard hc, fun _ => rfl⟩
            obtain ⟨s2, s3, h2, h3, q⟩ := both O n0 p x s1' (lt_of_le_of_lt (todo_mono hle1' rfl) hf1) hpre1' hpx rfl (Or.inr ⟨k, hop⟩)
            have hle3 : Le s3 { s3 with updateOffset := st.updateOffset } := le_of_eq_fields rfl rfl rfl rfl
            refine ⟨{ s3 with updateOffset := st.updateOffset }, ?_, ?_⟩
            · simp only [h2, h3, Option.bind_eq_bind, Option.bind_some, pure]
            · rcases q with ⟨q1, q2, q3, q4⟩ | ⟨hc, hd, hr⟩
              · apply close
                · exact ⟨q1.inv.congr rfl rfl rfl, hle1'.trans (q1.le.trans hle3), q1.off, hs.upd.symm, q1.seen⟩
                · unfold CTarget
                  simp only [hop]
                  exact ⟨q2.mono hle3, q3.mono hle3⟩
                · exact fun _ => hop_ne hop (by simp)
                · intro e he hne
                  obtain ⟨t1, t2, t3, t4⟩ := q4 e he hne
                  exact ⟨t1, t2.mono hle3, t3.mono hle3, t4, fun h => absurd hop (h x k hpx)⟩
              · have hc' : st.catSeen = false := hs.seen ▸ hc
                have : ({ s3 with updateOffset := st.updateOffset } : WState) = s3 := by
                  obtain ⟨c, O', hd'⟩ := hd
                  rw [hpre.upd hc', ← hd'.update]
                rw [this]
                exact Or.inr ⟨hc', hd, hd.down hr (by simp [hop]) hxin hlive⟩
          | mul => exact absurd hop (hg.noMul x)
          | cat sz =>
            dsimp only
            by_cases hc : s1.catSeen = true
            · exfalso
              apply hmem
              exact (hpre.guard (hs.seen ▸ hc) |>.mono hs.le) x sz n hop hxin (Or.inr hp)
            · rw [if_neg hc]
              rw [Bool.not_eq_true] at hc
              obtain ⟨s', O', e1, e2⟩ := catHandler_spec hg hop fuel ihAll (by unfold todo at hf1; rw [hc] at hf1; simp only [Bool.false_eq_true, if_false] at hf1; omega)
              refine ⟨s', e1, Or.inr ⟨hs.seen ▸ hc, ⟨x, O', e2⟩, ?_⟩⟩
              exact Done.down ⟨x, O', e2⟩ e2.reg (by simp [hop]) hxin hlive
          | input k => exact ⟨_, rfl, unsupp _ rfl (by unfold CTarget; simp only [hop]) (hop_ne hop (by simp))⟩
          | other f => exact ⟨_, rfl, unsupp _ rfl (by unfold CTarget; simp only [hop]) (hop_ne hop (by simp))⟩
          | output => exact ⟨_, rfl, unsupp _ rfl (by unfold CTarget; simp only [hop]) (hop_ne hop (by simp))⟩
    · intro O n0 p n st hfuel hpre hp hupd hexp hopn
      have hopn' : (∃ a, (nodeAt g n).op = .act a) ∨ (∃ k, (nodeAt g n).op = .add k) ∨ ∃ s, (nodeAt g n).op = .cat s := hopn.imp id Or.inl
      have hnm : ∀ m, (nodeAt g n).op ≠ .module m := by
        intro m hs
        rcases hopn with ⟨a, hop⟩ | ⟨k, hop⟩ <;> rw [hop] at hs <;> cases hs
      have hncn : NotCat g n := by
        intro s hs
        rcases hopn with ⟨a, hop⟩ | ⟨k, hop⟩ <;> rw [hop] at hs <;> cases hs
      unfold walk
      rw [if_neg (by simp)]
      have key := foldlM_spec
        (P := fun done s => (CStep g store part O n0 st s ∧ (∀ x ∈ done, (x, n) ∈ s.history) ∧
          ∀ e ∈ s.history, e ∉ st.history → part e.1 = p ∧ (CTarget g store part O s e.1 e.2 ∨ e.2 = n) ∧ CSource g store part O s e.1 ∧
            (st.catSeen = false → NotCat g e.1 ∧ NotCat g e.2)) ∨ (st.catSeen = false ∧ Done g store part s ∧ Reg g s n))
        (visitUp g store (walk g store fuel) st.updateOffset n) (inputNodes g n) [] st ?_
        (Or.inl ⟨⟨hpre.inv, Le.refl _, rfl, rfl, rfl⟩, by simp, fun e he hne => absurd he hne⟩)
      · obtain ⟨st', h1, h2⟩ := key
        refine ⟨st', h1, ?_⟩
        rcases h2 with ⟨h2, h4, h5⟩ | h2
        swap
        · exact Or.inr h2
        left
        have hpull : Pulled g st' n := by
          intro u hu
          exact h4 u (by simpa [mem_inputNodes] using hu)
        refine ⟨h2, hpull, ?_⟩
        intro e he hne
        obtain ⟨t1, t2, t3, t4⟩ := h5 e he hne
        refine ⟨t1, ?_, t3, t4⟩
        rcases t2 with t2 | t2
        · exact t2
        · rw [t2]
          unfold CTarget
          rcases hopn with ⟨a, hop⟩ | ⟨k, hop⟩ <;> rw [hop] <;> exact ⟨hexp.mono h2.le, hpull⟩
      · rintro done x s hx (⟨hs, hdone, hnew⟩ | ⟨hc, hd, hr⟩)
        swap
        · refine ⟨s, ?_, Or.inr ⟨hc, hd, hr⟩⟩
          unfold visitUp
          rw [if_pos (hr.pulled hnm x (mem_inputNodes.1 hx))]
        have hxin := mem_inputNodes.1 hx
        have hpx : part x = p := (hg.same n hopn x hxin).trans hp
        unfold visitUp
        by_cases hmem : (x, n) ∈ s.history
        · rw [if_pos hmem]
          refine ⟨s, rfl, Or.inl ⟨hs, ?_, hnew⟩⟩
          intro y hy
          rw [List.mem_append, List.mem_singleton] at hy
          rcases hy with hy | rfl
          · exact hdone y hy
          · exact hmem
        · rw [if_neg hmem]
          set s1 : WState := { s with history := (x, n) :: s.history } with hs1
          have hi1 : CInv g store part O n0 s1 := hs.inv.addEdge hxin
          have hle1 : Le s s1 := le_addEdge s _
          have hpre1 : CPre g store part O n0 p s1 :=
            ⟨hi1, hs.off.trans hpre.off, fun hc => (hpre.guard (hs.seen ▸ hc)).mono (hs.le.trans hle1), fun hc => hs.upd.trans (hpre.upd (hs.seen ▸ hc))⟩
          have hupd1 : s1.updateOffset = false := hs.upd.trans hupd
          have hf1 : todo g s1 < fuel := by
            have h1 := unvisited_lt (g := g) hle1 (mem_edges.2 hxin) hmem (by simp [hs1])
            have h2 := todo_mono (g := g) hs.le hs.seen
            have h3 : s1.catSeen = s.catSeen := rfl
            unfold todo at h2 hfuel ⊢
            rw [h3]
            omega
          have hop_ne : ∀ {s' : Op K}, (nodeAt g x).op = s' → (∀ z, s' ≠ .cat z) → NotCat g x := by
            intro s' h h' z hz
            exact h' z (h ▸ hz)
          have close : ∀ s', CStep g store part O n0 s1 s' → CSource g store part O s' x → (st.catSeen = false → NotCat g x) →
              (∀ e ∈ s'.history, e ∉ s1.history → part e.1 = p ∧ CTarget g store part O s' e.1 e.2 ∧ CSource g store part O s' e.1 ∧
                (s1.catSeen = false → NotCat g e.1 ∧ NotCat g e.2)) →
              (CStep g store part O n0 st s' ∧ (∀ y ∈ done ++ [x], (y, n) ∈ s'.history) ∧
              ∀ e ∈ s'.history, e ∉ st.history → part e.1 = p ∧ (CTarget g store part O s' e.1 e.2 ∨ e.2 = n) ∧ CSource g store part O s' e.1 ∧
                (st.catSeen = false → NotCat g e.1 ∧ NotCat g e.2)) ∨ (st.catSeen = false ∧ Done g store part s' ∧ Reg g s' n) := by
            intro s' hs' ht hx hn'
            left
            refine ⟨⟨hs'.inv, hs.le.trans (hle1.trans hs'.le), hs'.off.trans hs.off, hs'.upd.trans hs.upd, hs'.seen.trans hs.seen⟩, ?_, ?_⟩
            · intro y hy
              rw [List.mem_append, List.mem_singleton] at hy
              rcases hy with hy | rfl
              · exact (hle1.trans hs'.le).history _ (hdone y hy)
              · exact hs'.le.history _ (by simp [hs1])
            · intro e he hne
              by_cases he1 : e ∈ s1.history
              · rw [hs1] at he1
                simp only [List.mem_cons] at he1
                rcases he1 with rfl | he1
                · exact ⟨hpx, Or.inr rfl, ht, fun hc => ⟨hx hc, hncn⟩⟩
                · obtain ⟨t1, t2, t3, t4⟩ := hnew e he1 hne
                  exact ⟨t1, t2.imp (fun h => h.mono (hle1.trans hs'.le)) id, t3.mono (hle1.trans hs'.le), t4⟩
              · obtain ⟨t1, t2, t3, t4⟩ := hn' e he he1
                exact ⟨t1, Or.inl t2, t3, fun hc => t4 (hs.seen.trans hc)⟩
          have unsupp : ∀ s' : WState, s' = { s1 with unsupported := true } → CSource g store part O s' x → NotCat g x →
              (CStep g store part O n0 st s' ∧ (∀ y ∈ done ++ [x], (y, n) ∈ s'.history) ∧
              ∀ e ∈ s'.history, e ∉ st.history → part e.1 = p ∧ (CTarget g store part O s' e.1 e.2 ∨ e.2 = n) ∧ CSource g store part O s' e.1 ∧
                (st.catSeen = false → NotCat g e.1 ∧ NotCat g e.2)) ∨ (st.catSeen = false ∧ Done g store part s' ∧ Reg g s' n) := by
            rintro s' rfl ht hx
            apply close
            · exact ⟨hi1.congr rfl rfl rfl, ⟨fun _ h => h, fun _ h => h, fun _ h => h, fun _ => rfl⟩, rfl, rfl, rfl⟩
            · exact ht
            · exact fun _ => hx
            · intro e he hne
              exact absurd he hne
          cases hop : (nodeAt g x).op with
          | module m =>
            dsimp only
            set s1' : WState := { s1 with srcs := addKey s1.srcs (m, ⟨0, (store m).outCh, s1.offset⟩) } with hs1'
            have hi1' : CInv g store part O n0 s1' := hi1.addSrc hop (v := n) (by simp [hs1]) (by rw [hpx]; exact hpre1.off)
            have hle1' : Le s1 s1' := ⟨fun _ h => h, fun _ h => mem_addKey.2 (Or.inl h), fun _ h => h, fun h => h⟩
            obtain ⟨s2, h2, p2⟩ := ihD O n0 p x s1' (lt_of_le_of_lt (todo_mono hle1' rfl) hf1) ⟨hi1', hpre1.off, fun hc => (hpre1.guard hc).mono hle1', hpre1.upd⟩ hpx
              (by unfold Live; rw [hop]; trivial) (fun _ => hop_ne hop (by simp))
            have hu2 : s2.updateOffset = false := by
              rcases p2 with p2 | ⟨_, ⟨c, O', hd⟩, _⟩
              · exact p2.upd.trans hupd1
              · exact hd.update
            refine ⟨s2, ?_, ?_⟩
            · have e : (if s2.updateOffset = true then s2.offset + (store m).outCh else s2.offset) = s2.offset := by
                rw [hu2]
                rfl
              simp only [h2, Option.bind_eq_bind, Option.bind_some, pure, e]
            rcases p2 with p2 | ⟨hc, hd, hr⟩
            · have hS : CSource g store part O s2 x := by
                unfold CSource
                simp only [hop]
                refine ⟨p2.expanded, p2.le.srcs _ (mem_addKey.2 (Or.inr ?_))⟩
                rw [hpx, ← hpre1.off]
              apply close s2 ⟨p2.inv, hle1'.trans p2.le, p2.off, p2.upd, p2.seen⟩ hS (fun _ => hop_ne hop (by simp))
              intro e he hne
              obtain ⟨t1, t2, t3, t4, _⟩ := p2.new e he hne
              refine ⟨t1, t2, ?_, t4⟩
              rcases t3 with t3 | t3
              · exact t3
              · rw [t3]
                exact hS
            · exact Or.inr ⟨hs.seen ▸ hc, hd, hd.up hr hxin hopn'⟩
          | act a =>
            dsimp only
            obtain ⟨s2, s3, h2, h3, q⟩ := both O n0 p x s1 hf1 hpre1 hpx hupd1 (Or.inl ⟨a, hop⟩)
            refine ⟨s3, ?_, ?_⟩
            · simp only [h2, h3, Option.bind_eq_bind, Option.bind_some]
            · rcases q with ⟨q1, q2, q3, q4⟩ | ⟨hc, hd, hr⟩
              · apply close s3 q1 _ (fun _ => hop_ne hop (by simp)) q4
                unfold CSource
                simp only [hop]
                exact ⟨q2, q3⟩
              · exact Or.inr ⟨hs.seen ▸ hc, hd, hd.up hr hxin hopn'⟩
          | add k =>
            dsimp only
            set s1' : WState := { s1 with updateOffset := false } with hs1'
            have hle1' : Le s1 s1' := le_of_eq_fields rfl rfl rfl rfl
            have hpre1' : CPre g store part O n0 p s1' := ⟨hi1.congr rfl rfl rfl, hpre1.off, fun hc => hpre1.guard hc, fun _ => rfl⟩
            obtain ⟨s2, s3, h2, h3, q⟩ := both O n0 p x s1' (lt_of_le_of_lt (todo_mono hle1' rfl) hf1) hpre1' hpx rfl (Or.inr ⟨k, hop⟩)
            have hle3 : Le s3 { s3 with updateOffset := st.updateOffset } := le_of_eq_fields rfl rfl rfl rfl
            refine ⟨{ s3 with updateOffset := st.updateOffset }, ?_, ?_⟩
            · simp only [h2, h3, Option.bind_eq_bind, Option.bind_some, pure]
            · rcases q with ⟨q1, q2, q3, q4⟩ | ⟨hc, hd, hr⟩
              · apply close
                · exact ⟨q1.inv.congr rfl rfl rfl, hle1'.trans (q1.le.trans hle3), q1.off, hs.upd.symm, q1.seen⟩
                · unfold CSource
                  simp only [hop]
                  exact ⟨q2.mono hle3, q3.mono hle3⟩
                · exact fun _ => hop_ne hop (by simp)
                · intro e he hne
                  obtain ⟨t1, t2, t3, t4⟩ := q4 e he hne
                  exact ⟨t1, t2.mono hle3, t3.mono hle3, t4⟩
              · have : ({ s3 with updateOffset := st.updateOffset } : WState) = s3 := by
                  obtain ⟨c, O', hd'⟩ := hd
                  rw [hupd, ← hd'.update]
                rw [this]
                exact Or.inr ⟨hs.seen ▸ hc, hd, hd.up hr hxin hopn'⟩
          | mul => exact absurd hop (hg.noMul x)
          | cat sz =>
            dsimp only
            by_cases hc : s1.catSeen = true
            · rw [if_pos hc]
              set s1' : WState := { s1 with updateOffset := false } with hs1'
              have hle1' : Le s1 s1' := le_of_eq_fields rfl rfl rfl rfl
              have hpre1' : CPre g store part O n0 p s1' := ⟨hi1.congr rfl rfl rfl, hpre1.off, fun hc => hpre1.guard hc, fun _ => rfl⟩
              have hseen : st.catSeen = true := hs.seen ▸ hc
              obtain ⟨s2, h2, p2⟩ := ihD O n0 p x s1' (lt_of_le_of_lt (todo_mono hle1' rfl) hf1) hpre1' hpx (by unfold Live; rw [hop]; trivial) (fun h => by rw [show s1'.catSeen = true from hc] at h; cases h)
              rcases p2 with p2 | ⟨p2, _⟩
              swap
              · rw [show s1'.catSeen = true from hc] at p2
                cases p2
              have hpull : Pulled g s2 x := fun u hu => p2.le.history _ (hpre1'.guard hc x sz u hop hu (Or.inl hpx))
              set s2' : WState := { s2 with updateOffset := true } with hs2'
              have hpull' : Pulled g s2' x := hpull
              set s3 : WState := { s2' with updateOffset := st.updateOffset } with hs3
              have hle3 : Le s2 s3 := le_of_eq_fields rfl rfl rfl rfl
              refine ⟨s3, ?_, ?_⟩
              · obtain ⟨f', rfl⟩ : ∃ f', fuel = f' + 1 := ⟨fuel - 1, by omega⟩
                have h3 := walk_noop_up (store := store) hpull' f'
                rw [h2]
                simp only [Option.bind_eq_bind, Option.bind_some]
                rw [h3]
                rfl
              · have hS : CSource g store part O s3 x := by
                  unfold CSource
                  simp only [hop]
                  exact ⟨p2.expanded.mono hle3, hpull.mono hle3⟩
                apply close s3 ⟨p2.inv.congr rfl rfl rfl, hle1'.trans (p2.le.trans hle3), p2.off, hs.upd.symm, p2.seen⟩ hS (fun h => by rw [hseen] at h; cases h)
                intro e he hne
                obtain ⟨t1, t2, t3, t4, _⟩ := p2.new e he hne
                refine ⟨t1, t2.mono hle3, ?_, t4⟩
                rcases t3 with t3 | t3
                · exact t3.mono hle3
                · rw [t3]
                  exact hS
            · rw [if_neg hc]
              rw [Bool.not_eq_true] at hc
              obtain ⟨s', O', e1, e2⟩ := catHandler_spec hg hop fuel ihAll (by unfold todo at hf1; rw [hc] at hf1; simp only [Bool.false_eq_true, if_false] at hf1; omega)
              exact ⟨s', e1, Or.inr ⟨hs.seen ▸ hc, ⟨x, O', e2⟩, Done.up ⟨x, O', e2⟩ e2.reg hxin hopn'⟩⟩
          | input k => exact ⟨_, rfl, unsupp _ rfl (by unfold CSource; simp only [hop]) (hop_ne hop (by simp))⟩
          | other f => exact ⟨_, rfl, unsupp _ rfl (by unfold CSource; simp only [hop]) (hop_ne hop (by simp))⟩
          | output => exact ⟨_, rfl, unsupp _ rfl (by unfold CSource; simp only [hop]) (hop_ne hop (by simp))⟩

/-- `S` is the set of nodes whose values are rescaled by the region, `O (part n)` the position in the region of the first channel of node `n`. -/
structure ClosedAt (g : Graph K) (store : ℕ → Layer K) (part : ℕ → ℕ) (r : Region) (S : ℕ → Prop) (O : ℕ → ℕ) : Prop where
  own : ∀ n, S n →
    match (nodeAt g n).op with
    | .module m => (m, (⟨0, (store m).outCh, O (part n)⟩ : EqIdx)) ∈ r.srcs
    | .act _ | .add _ => ∀ i ∈ (nodeAt g n).ins, S i
    | .cat s => (∀ i ∈ (nodeAt g n).ins, S i) ∧ O (part n) = 0 ∧ ∀ k u, (nodeAt g n).ins[k]? = some u → O (part u) = (s.take k).sum
    | _ => False
  user : ∀ n v, S n → v < g.length → n ∈ (nodeAt g v).ins →
    match (nodeAt g v).op with
    | .module m => (m, (⟨0, sinkChannels (store m), O (part n)⟩ : EqIdx)) ∈ r.sinks
    | .act _ | .add _ | .cat _ => S v
    | _ => False
  src : ∀ m ix, (m, ix) ∈ r.srcs → ∃ n, (nodeAt g n).op = .module m ∧ S n ∧ ix = ⟨0, (store m).outCh, O (part n)⟩
  sink : ∀ m ix, (m, ix) ∈ r.sinks → (store m).kind ≠ .norm ∧
    ∃ n u, (nodeAt g n).op = .module m ∧ u ∈ (nodeAt g n).ins ∧ S u ∧ ix = ⟨0, sinkChannels (store m), O (part u)⟩
  srcsNodup : r.srcs.Nodup
  sinksNodup : r.sinks.Nodup

theorem closedAt_of {O : ℕ → ℕ} {n0 : Option ℕ} {st : WState} (hinv : CInv g store part O n0 st) (hns : st.unsupported = false) (hn0 : ∀ n, n0 = some n → CSource g store part O st n)
    (hall : ∀ e ∈ st.history, CTarget g store part O st e.1 e.2 ∧ CSource g store part O st e.1)
    (hcat : ∀ c s, (nodeAt g c).op = .cat s → ((∃ v, (c, v) ∈ st.history) ∨ ∃ u, (u, c) ∈ st.history) →
      O (part c) = 0 ∧ ∀ k u, (nodeAt g c).ins[k]? = some u → O (part u) = (s.take k).sum)
    (hn0c : ∀ n, n0 = some n → NotCat g n) :
    ∃ S, ClosedAt g store part ⟨st.srcs, st.sinks⟩ S O := by
  let S : ℕ → Prop := fun n => n0 = some n ∨ (∃ v, (n, v) ∈ st.history) ∨
    ((∃ u, (u, n) ∈ st.history) ∧ ((∃ a, (nodeAt g n).op = .act a) ∨ (∃ k, (nodeAt g n).op = .add k) ∨ ∃ s, (nodeAt g n).op = .cat s))
  have hS : ∀ n, S n → CSource g store part O st n := by
    rintro n (h | ⟨v, h⟩ | ⟨⟨u, h⟩, h'⟩)
    · exact hn0 n h
    · exact (hall _ h).2
    · have := (hall _ h).1
      unfold CTarget at this
      unfold CSource
      rcases h' with ⟨a, h'⟩ | ⟨k, h'⟩ | ⟨s, h'⟩ <;> simp only [h'] at this ⊢ <;> exact this
  have hexp : ∀ n, S n → Expanded g st n := by
    intro n hn
    have := hS n hn
    unfold CSource at this
    rw [hns] at this
    cases hop : (nodeAt g n).op <;> rw [hop] at this <;> dsimp only at this <;> first | exact this.1 | cases this
  refine ⟨S, ?_, ?_, ?_, ?_, hinv.srcsNodup, hinv.sinksNodup⟩
  · intro n hn
    have := hS n hn
    unfold CSource at this
    rw [hns] at this
    cases hop : (nodeAt g n).op with
    | module m =>
      rw [hop] at this
      exact this.2
    | act a =>
      rw [hop] at this
      exact fun i hi => Or.inr (Or.inl ⟨n, this.2 i hi⟩)
    | add k =>
      rw [hop] at this
      exact fun i hi => Or.inr (Or.inl ⟨n, this.2 i hi⟩)
    | cat s =>
      rw [hop] at this
      refine ⟨fun i hi => Or.inr (Or.inl ⟨n, this.2 i hi⟩), hcat n s hop ?_⟩
      rcases hn with h | h | ⟨h, _⟩
      · exact absurd hop (hn0c n h s)
      · exact Or.inl h
      · exact Or.inr h
    | mul =>
      rw [hop] at this
      exact this
    | input k =>
      rw [hop] at this
      cases this
    | other f =>
      rw [hop] at this
      cases this
    | output =>
      rw [hop] at this
      cases this
  · intro n v hn hv hin
    have he : (n, v) ∈ st.history := hexp n hn v (mem_users.2 ⟨hv, hin⟩)
    have ht := (hall _ he).1
    unfold CTarget at ht
    dsimp only at ht
    rw [hns] at ht
    cases hop : (nodeAt g v).op with
    | module m =>
      rw [hop] at ht
      dsimp only at ht ⊢
      split_ifs at ht with hk
      exact ht
    | act a => exact Or.inr (Or.inr ⟨⟨n, he⟩, Or.inl ⟨_, hop⟩⟩)
    | add k => exact Or.inr (Or.inr ⟨⟨n, he⟩, Or.inr (Or.inl ⟨_, hop⟩)⟩)
    | cat s => exact Or.inr (Or.inr ⟨⟨n, he⟩, Or.inr (Or.inr ⟨_, hop⟩)⟩)
    | mul =>
      rw [hop] at ht
      exact ht
    | input k =>
      rw [hop] at ht
      cases ht
    | other f =>
      rw [hop] at ht
      cases ht
    | output =>
      rw [hop] at ht
      cases ht
  · intro m ix hm
    obtain ⟨n, h1, h2, h3⟩ := hinv.src m ix hm
    exact ⟨n, h1, h3.imp id Or.inl, h2⟩
  · intro m ix hm
    obtain ⟨h1, n, u, h2, h3, h4⟩ := hinv.sink m ix hm
    exact ⟨h1, n, u, h2, hinv.edge u n h3, Or.inr (Or.inl ⟨n, h3⟩), h4⟩

theorem todo_lt_walkFuel (g : Graph K) (st : WState) : todo g st < walkFuel g := by
  have h1 : unvisited g st ≤ (edges g).toFinset.card := unvisited_le g st
  have h2 : (edges g).toFinset.card ≤ (edges g).length := List.toFinset_card_le _
  have h3 : (edges g).length = (g.map fun n => n.ins.length).sum := by
    unfold edges
    rw [List.length_flatMap]
    congr 1
    apply List.ext_getElem
    · simp
    · intro i h1 h2
      simp only [List.length_map, List.length_range] at h1 h2
      simp only [List.getElem_map, List.getElem_range, List.length_map]
      unfold nodeAt
      rw [List.getD_eq_getElem _ _ h2]
  unfold walkFuel todo
  split_ifs <;> omega

theorem regionOf_cat_spec (hg : Concats g store part) (n0 m0 : ℕ) (hop : (nodeAt g n0).op = .module m0) :
    ∃ res, regionOf g store n0 m0 = some res ∧ ∀ r, res = some r → ∃ S O, ClosedAt g store part r S O := by
  have hinv : CInv g store part (fun _ => 0) (some n0) { srcs := [(m0, ⟨0, (store m0).outCh, 0⟩)] } := by
    refine ⟨by simp, ?_, by simp, by simp, by simp⟩
    intro m ix hm
    simp only [List.mem_singleton, Prod.mk.injEq] at hm
    obtain ⟨rfl, rfl⟩ := hm
    exact ⟨n0, hop, rfl, Or.inl rfl⟩
  obtain ⟨st, h1, p⟩ := (walk_cat_spec hg (walkFuel g)).1 (fun _ => 0) (some n0) (part n0) n0 _ (todo_lt_walkFuel g _) ⟨hinv, rfl, nofun, fun _ => rfl⟩ rfl
    (by unfold Live; rw [hop]; trivial) (fun _ s h => by rw [hop] at h; cases h)
  unfold regionOf
  rw [h1]
  simp only [Option.bind_eq_bind, Option.bind_some, pure]
  by_cases hu : (st.sinks.isEmpty || st.unsupported) = true
  · rw [if_pos hu]
    exact ⟨_, rfl, by simp⟩
  · rw [if_neg hu]
    refine ⟨_, rfl, ?_⟩
    intro r hr
    simp only [Option.some.injEq] at hr
    subst hr
    have hns : st.unsupported = false := by
      cases h : st.unsupported
      · rfl
      · exact absurd (by simp [h]) hu
    rcases p with p | ⟨_, ⟨c, O, hd⟩, _⟩
    · have hS0 : CSource g store part (fun _ => 0) st n0 := by
        unfold CSource
        simp only [hop]
        exact ⟨p.expanded, p.le.srcs _ (by simp)⟩
      obtain ⟨S, hS⟩ := closedAt_of p.inv hns (fun n hn => by cases hn; exact hS0)
        (fun e he => by
          obtain ⟨_, t2, t3, _⟩ := p.new e he (by simp)
          refine ⟨t2, ?_⟩
          rcases t3 with t3 | t3
          · exact t3
          · rw [t3]
            exact hS0)
        (fun c s hc hor => by
          exfalso
          rcases hor with ⟨v, h⟩ | ⟨u, h⟩
          · exact ((p.new _ h (by simp)).2.2.2.1 rfl).1 s hc
          · exact ((p.new _ h (by simp)).2.2.2.1 rfl).2 s hc)
        (fun n hn s h => by cases hn; rw [hop] at h; cases h)
      exact ⟨S, _, hS⟩
    · obtain ⟨s, ws, hopc, hsz, hO, huns⟩ := hd.sizes
      have hnone : none ∉ ws := by
        intro h
        rw [huns h] at hns
        cases hns
      have hws := hsz hnone
      obtain ⟨S, hS⟩ := closedAt_of hd.inv hns (fun n hn => by cases hn) hd.all
        (fun c' s' hc' hor => by
          have hcc : c' = c := by
            rcases hor with ⟨v, h⟩ | ⟨u, h⟩
            · exact hg.apart c' c s' s hc' hopc (part c') (by simp) (hd.parts _ h)
            · exact hg.apart c' c s' s hc' hopc (part u) (List.mem_cons_of_mem _ (List.mem_map.2 ⟨u, hd.inv.edge _ _ h, rfl⟩)) (hd.parts _ h)
          subst hcc
          rw [hopc] at hc'
          cases hc'
          refine ⟨hd.zero, fun k u hk => ?_⟩
          rw [hO k u hk, hws, ← List.map_take, List.map_map]
          congr 1
          exact List.map_id'' (fun _ => rfl) _)
        (fun n hn => by cases hn)
      exact ⟨S, O, hS⟩

theorem extractRegions_cat_spec (hg : Concats g store part) :
    ∃ regions, extractRegions g store = some regions ∧ ∀ r ∈ regions, ∃ S O, ClosedAt g store part r S O := by
  unfold extractRegions
  have key := foldlM_spec (P := fun (_ : List ℕ) (rs : List Region) => ∀ r ∈ rs, ∃ S O, ClosedAt g store part r S O)
    (extractStep g store) (List.range g.length) [] [] ?_ (by simp)
  · exact key
  · intro done n rs _ hrs
    unfold extractStep
    cases hop : (nodeAt g n).op with
    | module m =>
      obtain ⟨res, h1, h2⟩ := regionOf_cat_spec hg n m hop
      dsimp only
      rw [h1]
      cases res with
      | none => exact ⟨rs, rfl, hrs⟩
      | some r =>
        refine ⟨_, rfl, ?_⟩
        split_ifs
        · exact hrs
        · intro r' hr'
          rw [List.mem_append, List.mem_singleton] at hr'
          rcases hr' with hr' | rfl
          · exact hrs r' hr'
          · exact h2 _ rfl
    | _ => exact ⟨rs, rfl, hrs⟩

/-! ## The update of the weights -/

theorem names_nodup' {l : List (ℕ × EqIdx)} (hl : l.Nodup) (hF : ∀ m ix ix', (m, ix) ∈ l → (m, ix') ∈ l → ix = ix') : (l.map Prod.fst).Nodup := by
  apply List.Nodup.map_on _ hl
  rintro ⟨m, ix⟩ h1 ⟨m', ix'⟩ h2 hmm
  dsimp only at hmm
  subst hmm
  rw [hF m ix ix' h1 h2]

theorem ClosedAt.congr {a b : ℕ → Layer K} (h : SameShape a b) {r : Region} {S : ℕ → Prop} {O : ℕ → ℕ} (hc : ClosedAt g a part r S O) : ClosedAt g b part r S O where
  own := by
    intro n hn
    have := hc.own n hn
    cases hop : (nodeAt g n).op <;> rw [hop] at this <;> dsimp only at this ⊢
    · rw [(h _).2.1]
      exact this
    · exact this
    · exact this
    · exact this
  user := by
    intro n v hn hv hin
    have := hc.user n v hn hv hin
    cases hop : (nodeAt g v).op <;> rw [hop] at this <;> dsimp only at this ⊢
    · rw [h.sinkChannels]
      exact this
    · exact this
    · exact this
    · exact this
  src := by
    intro m ix hm
    obtain ⟨n, h1, h2, h3⟩ := hc.src m ix hm
    exact ⟨n, h1, h2, by rw [h3, (h m).2.1]⟩
  sink := by
    intro m ix hm
    obtain ⟨h1, n, u, h2, h3, h4, h5⟩ := hc.sink m ix hm
    exact ⟨by rw [(h m).1]; exact h1, n, u, h2, h3, h4, by rw [h5, h.sinkChannels]⟩
  srcsNodup := hc.srcsNodup
  sinksNodup := hc.sinksNodup

theorem catLab_of (f : ℕ → K) (lab : ℕ → ℕ → K) : ∀ (sizes ins : List ℕ) (base : ℕ), sizes.length = ins.length →
    (∀ k u, ins[k]? = some u → ∀ c, lab u c = f (base + (sizes.take k).sum + c)) → ∀ c, c < sizes.sum → catLab sizes (ins.map lab) c = f (base + c)
  | [], _, _, _, _, c, hc => by simp at hc
  | n :: sizes, [], _, h, _, _, _ => by simp at h
  | n :: sizes, u :: ins, base, h, hl, c, hc => by
    simp only [List.map_cons, catLab]
    by_cases hcn : c < n
    · rw [if_pos hcn, hl 0 u rfl c]
      simp
    · rw [if_neg hcn, catLab_of f lab sizes ins (base + n) (by simpa using h) _ (c - n) (by simp only [List.sum_cons] at hc; omega)]
      · congr 1
        omega
      · intro k v hk c
        rw [hl (k + 1) v (by simpa using hk) c]
        simp only [List.take_succ_cons, List.sum_cons]
        congr 1
        omega

theorem catLab_one (lab : ℕ → ℕ → K) : ∀ (sizes ins : List ℕ), (∀ u ∈ ins, ∀ c, lab u c = 1) → ∀ c, catLab sizes (ins.map lab) c = 1
  | [], _, _, c => by simp [catLab]
  | _ :: _, [], _, c => by simp [catLab]
  | n :: sizes, u :: ins, h, c => by
    simp only [List.map_cons, catLab]
    split_ifs
    · exact h u (by simp) c
    · exact catLab_one lab sizes ins (fun v hv => h v (by simp [hv])) _

theorem applyFactors_consistent_cat {store0 : ℕ → Layer K} (hg : Concats g store0 part) {r : Region} {S : ℕ → Prop} {O : ℕ → ℕ} (hc : ClosedAt g store part r S O)
    (hk : ∀ s ∈ r.sinks, inputAxisIsOutput (store s.1).kind ≠ none) (f : ℕ → K) (hf : ∀ c, 0 < f c) [DecidablePred S] :
    Consistent store (applyFactors f r store) (fun n c => if S n then f (O (part n) + c) else 1) g := by
  refine ⟨?_, ?_⟩
  · intro n c
    dsimp only
    split_ifs
    · exact hf _
    · exact one_pos
  intro n nd hnd
  have hlt : n < g.length := by
    by_contra hcon
    rw [List.getElem?_eq_none (by omega)] at hnd
    cases hnd
  have hnode : nodeAt g n = nd := by
    unfold nodeAt
    rw [List.getD_eq_getElem?_getD, hnd]
    rfl
  have hunary : (∀ k, nd.op ≠ .add k) → (∀ k, nd.op ≠ .input k) → (∀ s, nd.op ≠ .cat s) → ∃ i, nd.ins = [i] := by
    intro h1 h2 h3
    have := hg.unary n hlt
    rw [hnode] at this
    exact this h1 h2 h3
  have hown := hc.own n
  have huser := fun i (hi : S i) => hc.user i n hi hlt
  have hsame := hg.same n
  rw [hnode] at hown huser hsame
  unfold NodeConsistent
  cases hop : nd.op with
  | input k =>
    rw [hop] at hown
    intro c
    exact if_neg (fun h => hown h)
  | module m =>
    rw [hop] at hown huser
    dsimp only at hown huser ⊢
    obtain ⟨i, hins⟩ := hunary (by simp [hop]) (by simp [hop]) (by simp [hop])
    rw [hins] at huser ⊢
    have hopn : (nodeAt g n).op = .module m := by rw [hnode, hop]
    have hsrcIx : ∀ ix, (m, ix) ∈ r.srcs → ix = ⟨0, (store m).outCh, O (part n)⟩ ∧ S n := by
      intro ix h
      obtain ⟨n', h1, h2, h3⟩ := hc.src m ix h
      rw [← hg.once n n' m hopn h1] at h2 h3
      exact ⟨h3, h2⟩
    have hsinkIx : ∀ ix, (m, ix) ∈ r.sinks → ix = ⟨0, sinkChannels (store m), O (part i)⟩ ∧ S i := by
      intro ix h
      obtain ⟨_, n', u, h1, h2, h3, h4⟩ := hc.sink m ix h
      rw [← hg.once n n' m hopn h1, hnode, hins] at h2
      simp only [List.mem_singleton] at h2
      rw [h2] at h3 h4
      exact ⟨h4, h3⟩
    have hsn : (r.srcs.map Prod.fst).Nodup := by
      refine names_nodup' hc.srcsNodup fun m' ix ix' h h' => ?_
      obtain ⟨a, h1, _, h3⟩ := hc.src m' ix h
      obtain ⟨b, h4, _, h6⟩ := hc.src m' ix' h'
      rw [h3, h6, hg.once a b m' h1 h4]
    have hkn : (r.sinks.map Prod.fst).Nodup := by
      refine names_nodup' hc.sinksNodup fun m' ix ix' h h' => ?_
      obtain ⟨_, a, u, h1, h2, _, h3⟩ := hc.sink m' ix h
      obtain ⟨_, b, v, h4, h5, _, h6⟩ := hc.sink m' ix' h'
      rw [← hg.once a b m' h1 h4] at h5
      obtain ⟨j, hj⟩ := hg.unary a (lt_of_mem_ins h2) (by simp [h1]) (by simp [h1]) (by simp [h1])
      rw [hj, List.mem_singleton] at h2 h5
      rw [h3, h6, h2, h5]
    -- the source part of the update
    have h1 : ∃ L1 : Layer K, r.srcs.foldl (fun st s => updateStore st s.1 (scaleOut (fun c => (f c)⁻¹) s.2)) store m = L1 ∧
        L1.kind = (store m).kind ∧ L1.outCh = (store m).outCh ∧ L1.inCh = (store m).inCh ∧ L1.taps = (store m).taps ∧
        L1.tap = (store m).tap ∧ L1.normalise = (store m).normalise ∧
        (∀ o i t, L1.w o i t * (if S n then f (O (part n) + o) else 1) = (store m).w o i t) ∧
        (∀ o, L1.biasAt o * (if S n then f (O (part n) + o) else 1) = (store m).biasAt o) := by
      obtain ⟨e1, e2⟩ := foldl_updateStore (fun ix => scaleOut (fun c => (f c)⁻¹) ix) r.srcs store hsn m
      by_cases hS : S n
      · have hmem := hown hS
        refine ⟨_, e1 _ hmem, rfl, rfl, rfl, rfl, rfl, rfl, ?_, ?_⟩
        · intro o i t
          rw [if_pos hS]
          simp only [scaleOut, Nat.add_zero]
          rw [mul_assoc, inv_mul_cancel₀ (hf _).ne', mul_one]
        · intro o
          rw [if_pos hS]
          simp only [scaleOut, Layer.biasAt, Nat.add_zero]
          cases (store m).b with
          | none => simp
          | some b =>
            simp only [Option.map_some]
            rw [mul_assoc, inv_mul_cancel₀ (hf _).ne', mul_one]
      · refine ⟨_, e2 (fun ix h => hS (hsrcIx ix h).2), rfl, rfl, rfl, rfl, rfl, rfl, ?_, ?_⟩
        · intro o i t
          rw [if_neg hS, mul_one]
        · intro o
          rw [if_neg hS, mul_one]
    obtain ⟨L1, hL1, k1, k2, k3, k4, k5, k6, k7, k8⟩ := h1
    obtain ⟨e1, e2⟩ := foldl_updateStore (fun ix => scaleIn f ix) r.sinks
      (r.srcs.foldl (fun st s => updateStore st s.1 (scaleOut (fun c => (f c)⁻¹) s.2)) store) hkn m
    rw [hL1] at e1 e2
    by_cases hSi : S i
    · have hmem := huser i hSi (by simp)
      have happ : applyFactors f r store m = scaleIn f ⟨0, sinkChannels (store m), O (part i)⟩ L1 := e1 _ hmem
      rw [happ]
      have hnorm := (hc.sink m _ hmem).1
      have haxis := hk _ hmem
      dsimp only at haxis
      refine ⟨k1, k2, k3, k4, k5, k6, ?_, fun o _ => k8 o, fun h => absurd h hnorm⟩
      intro _ o j t ho hj _
      have hl : labIn (fun n c => if S n then f (O (part n) + c) else 1) [i] ((store m).reads o j) = f (O (part i) + (store m).reads o j) :=
        if_pos hSi
      rw [hl, ← k7 o j t]
      simp only [scaleIn]
      rw [k1]
      have hps : partialScaling f ⟨0, sinkChannels (store m), O (part i)⟩
          (if inputAxisIsOutput (store m).kind = some true then o else j) = f (O (part i) + (store m).reads o j) := by
        unfold partialScaling sinkChannels Layer.reads
        cases hkind : (store m).kind with
        | dense => simp [inputAxisIsOutput, hj]
        | depthwise => simp [inputAxisIsOutput, ho]
        | grouped n =>
          rw [hkind] at haxis
          exact absurd rfl haxis
        | norm => exact absurd hkind hnorm
      rw [hps]
      ring
    · have happ : applyFactors f r store m = L1 := e2 (fun ix h => hSi (hsinkIx ix h).2)
      rw [happ]
      have hl : ∀ c, labIn (fun n c => if S n then f (O (part n) + c) else 1) [i] c = 1 := fun c => if_neg hSi
      refine ⟨k1, k2, k3, k4, k5, k6, ?_, fun o _ => k8 o, ?_⟩
      · intro _ o j t _ _ _
        rw [hl, mul_one]
        exact k7 o j t
      · intro _
        exact ⟨hl, fun o _ => k7 o 0 0⟩
  | act a =>
    rw [hop] at hown huser hsame
    dsimp only at hown huser ⊢
    obtain ⟨i, hins⟩ := hunary (by simp [hop]) (by simp [hop]) (by simp [hop])
    rw [hins] at hown huser hsame ⊢
    intro c
    have : S n ↔ S i := ⟨fun h => hown h i (by simp), fun h => huser i h (by simp)⟩
    simp only [labIn, this, hsame (Or.inl ⟨a, rfl⟩) i (by simp)]
  | add k =>
    rw [hop] at hown huser hsame
    dsimp only at hown huser ⊢
    refine ⟨?_, ?_⟩
    · intro i hi c
      have : S i ↔ S n := ⟨fun h => huser i h hi, fun h => hown h i hi⟩
      simp only [this, hsame (Or.inr ⟨k, rfl⟩) i hi]
    · left
      have : k = none := hg.noConst n k (by rw [hnode, hop])
      rw [this]
      rfl
  | mul => exact absurd (by rw [hnode, hop]) (hg.noMul n)
  | cat sz =>
    rw [hop] at hown huser
    dsimp only at hown huser ⊢
    intro c hcs
    have hlen : sz.length = nd.ins.length := by
      have := (hg.branch n sz (by rw [hnode, hop])).length_eq
      rw [hnode] at this
      exact this.symm
    by_cases hS : S n
    · obtain ⟨h1, h2, h3⟩ := hown hS
      rw [if_pos hS, h2]
      rw [catLab_of f _ sz nd.ins 0 hlen _ c hcs]
      intro k u hku c
      rw [if_pos (h1 u (List.mem_of_getElem? hku)), h3 k u hku, Nat.zero_add]
    · rw [if_neg hS, catLab_one]
      intro u hu c
      exact if_neg fun h => hS (huser u h hu)
  | other h =>
    rw [hop] at hown huser
    obtain ⟨i, hins⟩ := hunary (by simp [hop]) (by simp [hop]) (by simp [hop])
    rw [hins] at huser ⊢
    exact ⟨fun c => if_neg (fun h => huser i h (by simp)), fun c => if_neg (fun h => hown h)⟩
  | output =>
    rw [hop] at hown huser
    obtain ⟨i, hins⟩ := hunary (by simp [hop]) (by simp [hop]) (by simp [hop])
    rw [hins] at huser ⊢
    exact ⟨fun c => if_neg (fun h => huser i h (by simp)), fun c => if_neg (fun h => hown h)⟩

end Brevitas.Equalize
