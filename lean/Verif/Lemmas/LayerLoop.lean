import Verif.Lemmas.LayerHandler

/-! # The replacement of layers, node after node -/

namespace Brevitas.Residual

/-- Modules of this class are replaced. -/
def Replaced (lm : LayerMap) (c : String) : Prop := lm.inst c = true ∧ ∃ p, lm.entry c = some (some p)

/-- What holds of the graph `N` that `N0` has become. -/
structure Came (lm : LayerMap) (rank : ℕ → ℕ) (fuel : ℕ) (N0 N : Net) : Prop where
  wf : Wf N
  walk : Walkable N.g N.nodes rank
  depth : ∀ x ∈ N.nodes, IsQuant N.g x ∨ rank x < fuel
  nodes : ∀ x ∈ N0.nodes, x ∈ N.nodes
  op : ∀ x ∈ N0.nodes, N.g.op x = N0.g.op x
  next : N0.g.next ≤ N.g.next
  wiring : ∀ x ∈ N0.nodes, List.Forall₂ (After N0.nodes N) (N.g.args x) (N0.g.args x)
  stay : ∀ m o, (m, o) ∈ N0.g.mods → ¬ Replaced lm (N0.cls o) → ((m, o) ∈ N.g.mods ∧ N.cls o = N0.cls o ∧ N.g.objs o = N0.g.objs o) ∨
    (NewName m ∧ ∃ o', (m, o') ∈ N.g.mods ∧ N.cls o' = "QuantIdentity")

/-- The layer called `m`, module `o` at first, is still there. -/
structure Pending (lm : LayerMap) (N0 N : Net) (m : Name) (o : ℕ) : Prop where
  mem : (m, o) ∈ N.g.mods
  cls : N.cls o = N0.cls o
  float : N.g.objs o = .float
  bn : lm.bn (N.cls o) = false
  name : ∀ m', (m', o) ∈ N.g.mods → m' = m
  old : o < N0.g.next

/-- The layer called `m`, module `o` at first, is replaced by one of class `c`. -/
def DoneMod (N0 N : Net) (m : Name) (o : ℕ) (c : String) : Prop := ∃ o', (m, o') ∈ N.g.mods ∧ N.cls o' = c ∧ N.src o' = o ∧ N0.g.next ≤ o'

theorem came_insert {lm : LayerMap} {rank : ℕ → ℕ} {fuel : ℕ} {N0 N : Net} (C : Came lm rank fuel N0 N) (hN0 : ∀ x ∈ N0.nodes, x < N0.g.next)
    {m : Name} (hm : NewName m) {b : ℕ} (hb : b ∈ N.nodes) (ex : List ℕ) : Came lm rank fuel N0 (insertQuant N m b ex) := by
  have W' := insertQuant_wf (m := m) C.wf ex hb
  have R := insertQuant_refines lm C.wf hm b ex
  have hlt : ∀ x ∈ N0.nodes, x < N.g.next := fun x hx => lt_of_lt_of_le (hN0 x hx) C.next
  refine ⟨W', R.walkable C.wf W' C.walk, fun x hx => ?_, fun x hx => R.nodes x (C.nodes x hx), fun x hx => ?_, Nat.le_succ_of_le C.next,
    fun x hx => ?_, fun m' o h1 h2 => ?_⟩
  · rcases R.fresh x hx with h | h
    · exact (C.depth x h).imp_left (R.isQuant_iff C.wf W' h).mpr
    · exact Or.inl h
  · rw [R.op x (C.nodes x hx), C.op x hx]
  · rw [insertQuant_args N m b ex (hlt x hx).ne]
    split_ifs
    · exact (C.wiring x hx).imp fun _ _ h => (after_insert (lm := lm) C.wf hlt hm hb ex h).1
    · rw [List.forall₂_map_left_iff]
      exact (C.wiring x hx).imp fun _ _ h => (after_insert (lm := lm) C.wf hlt hm hb ex h).2
  · by_cases he : m' = m
    · refine Or.inr ⟨he ▸ hm, N.g.next, (insertQuant_mods C.wf m b ex _ _).mpr (Or.inl ⟨he, rfl⟩), ?_⟩
      exact Function.update_self _ _ _
    · rcases C.stay m' o h1 h2 with ⟨h3, h4, h5⟩ | ⟨h3, o', h4, h5⟩
      · have hne := (C.wf.objs _ h3).ne
        refine Or.inl ⟨(insertQuant_mods C.wf m b ex _ _).mpr (Or.inr ⟨he, h3⟩), ?_, ?_⟩
        · rw [← h4]; exact Function.update_of_ne hne _ _
        · rw [← h5]; exact Function.update_of_ne hne _ _
      · have hne := (C.wf.objs _ h4).ne
        refine Or.inr ⟨h3, o', (insertQuant_mods C.wf m b ex _ _).mpr (Or.inr ⟨he, h4⟩), ?_⟩
        rw [← h5]; exact Function.update_of_ne hne _ _

theorem came_replace {lm : LayerMap} {rank : ℕ → ℕ} {fuel : ℕ} {N0 N : Net} (C : Came lm rank fuel N0 N) {old : ℕ} (c : String)
    (hfloat : N.g.objs old = .float) (hbn : lm.bn (N.cls old) = false) (hrep : Replaced lm (N.cls old)) (hid : lm.inst "QuantIdentity" = false) :
    Came lm rank fuel N0 (replaceLayer N old c) := by
  have W' := replaceLayer_wf C.wf c hfloat
  have R := replaceLayer_refines C.wf c hfloat hbn
  refine ⟨W', R.walkable C.wf W' C.walk, fun x hx => (C.depth x hx).imp_left (R.isQuant_iff C.wf W' hx).mpr, C.nodes, C.op,
    Nat.le_succ_of_le C.next, fun x hx => (C.wiring x hx).imp fun _ _ h => after_replace C.wf c hfloat hbn h, fun m' o h1 h2 => ?_⟩
  rcases C.stay m' o h1 h2 with ⟨h3, h4, h5⟩ | ⟨h3, o', h4, h5⟩
  · have hne := (C.wf.objs _ h3).ne
    refine Or.inl ⟨replaceFirst_keep _ _ _ _ h3 fun hc => ?_, ?_, ?_⟩
    · have hc : o = old := hc
      rw [hc] at h4 h2
      rw [h4] at hrep
      exact h2 hrep
    · rw [← h4]; exact Function.update_of_ne hne _ _
    · rw [← h5]; exact Function.update_of_ne hne _ _
  · have hne := (C.wf.objs _ h4).ne
    refine Or.inr ⟨h3, o', replaceFirst_keep _ _ _ _ h4 fun hc => ?_, ?_⟩
    · have hc : o' = old := hc
      have := hrep.1
      rw [← hc, h5, hid] at this
      simp at this
    · rw [← h5]; exact Function.update_of_ne hne _ _

theorem pending_insert {lm : LayerMap} {N0 N : Net} (W : Wf N) {m' : Name} {o : ℕ} (P : Pending lm N0 N m' o)
    {m : Name} (hm : NewName m) (b : ℕ) (ex : List ℕ) : Pending lm N0 (insertQuant N m b ex) m' o := by
  have hne := (W.objs _ P.mem).ne
  have hmm : m' ≠ m := by
    rintro rfl
    have := W.taken _ P.mem hm
    rw [P.float] at this
    simp [Obj.actQuant] at this
  have hcls : (insertQuant N m b ex).cls o = N.cls o := Function.update_of_ne hne _ _
  refine ⟨(insertQuant_mods W m b ex _ _).mpr (Or.inr ⟨hmm, P.mem⟩), by rw [hcls, P.cls], ?_, by rw [hcls, P.bn], fun x hx => ?_, P.old⟩
  · rw [← P.float]; exact Function.update_of_ne hne _ _
  · rcases (insertQuant_mods W m b ex _ _).mp hx with ⟨_, h⟩ | ⟨_, h⟩
    · exact absurd h hne
    · exact P.name x h

theorem pending_replace {lm : LayerMap} {N0 N : Net} (W : Wf N) {m' : Name} {o : ℕ} (P : Pending lm N0 N m' o) {old : ℕ} (hne : o ≠ old) (c : String) :
    Pending lm N0 (replaceLayer N old c) m' o := by
  have hne' := (W.objs _ P.mem).ne
  have hcls : (replaceLayer N old c).cls o = N.cls o := Function.update_of_ne hne' _ _
  refine ⟨replaceFirst_keep _ _ _ _ P.mem hne, by rw [hcls, P.cls], ?_, by rw [hcls, P.bn], fun x hx => ?_, P.old⟩
  · rw [← P.float]; exact Function.update_of_ne hne' _ _
  · rcases replaceFirst_mem _ _ _ _ hx with h | ⟨h, _⟩
    · exact P.name x h
    · exact absurd h hne'

theorem doneMod_insert {N0 N : Net} (W : Wf N) {m' : Name} {o : ℕ} {c : String} (D : DoneMod N0 N m' o c) {m : Name} (hmm : m' ≠ m) (b : ℕ)
    (ex : List ℕ) : DoneMod N0 (insertQuant N m b ex) m' o c := by
  obtain ⟨o', h1, h2, h3, h4⟩ := D
  have hne := (W.objs _ h1).ne
  refine ⟨o', (insertQuant_mods W m b ex _ _).mpr (Or.inr ⟨hmm, h1⟩), ?_, h3, h4⟩
  rw [← h2]; exact Function.update_of_ne hne _ _

theorem doneMod_replace {N0 N : Net} (W : Wf N) {m' : Name} {o : ℕ} {c : String} (D : DoneMod N0 N m' o c) {old : ℕ} (hold : old < N0.g.next)
    (c' : String) : DoneMod N0 (replaceLayer N old c') m' o c := by
  obtain ⟨o', h1, h2, h3, h4⟩ := D
  have hne := (W.objs _ h1).ne
  refine ⟨o', replaceFirst_keep _ _ _ _ h1 (fun hc => ?_), ?_, ?_, h4⟩
  · have hc : o' = old := hc
    omega
  · rw [← h2]; exact Function.update_of_ne hne _ _
  · rw [← h3]; exact Function.update_of_ne hne _ _

/-- Node `v` calls the layer `o` by its name `m`. -/
structure IsLayer (lm : LayerMap) (N0 : Net) (v : ℕ) (m : Name) (o : ℕ) : Prop where
  node : v ∈ N0.nodes
  op : N0.g.op v = .call m
  mem : (m, o) ∈ N0.g.mods
  inst : lm.inst (N0.cls o) = true

/-- What is to be shown of a layer. -/
structure Handled (lm : LayerMap) (requantize : Bool) (N0 N : Net) (v : ℕ) (m : Name) (o : ℕ) : Prop where
  replaced : ∀ c q, lm.entry (N0.cls o) = some (some (c, q)) →
    DoneMod N0 N m o c ∧ (q = false → ∀ b, (N.g.args v).head? = some b → Quantised N.g b)
  requantised : requantize = true → Requantised lm N v

/-- The layers of the nodes `todo` are still to be replaced. -/
structure State (lm : LayerMap) (rank : ℕ → ℕ) (fuel : ℕ) (requantize : Bool) (N0 N : Net) (todo : List ℕ) : Prop where
  came : Came lm rank fuel N0 N
  pend : ∀ v ∈ todo, ∀ m o, IsLayer lm N0 v m o → Pending lm N0 N m o
  done : ∀ v, v ∉ todo → ∀ m o, IsLayer lm N0 v m o → Handled lm requantize N0 N v m o

theorem Refines.head {lm : LayerMap} {N N' : Net} (R : Refines lm N N') {v : ℕ} (hv : v ∈ N.nodes) {b' : ℕ} (h : (N'.g.args v).head? = some b') :
    IsQuant N'.g b' ∨ (N.g.args v).head? = some b' := by
  have := R.args v hv
  generalize N'.g.args v = l' at *
  generalize N.g.args v = l at *
  cases this with
  | nil => simp at h
  | @cons a b _ _ h1 _ =>
    have : a = b' := by simpa using h
    subst this
    rcases h1 with h1 | h1
    · exact Or.inr (by simp [h1])
    · exact Or.inl h1

theorem Refines.headQuantised {lm : LayerMap} {N N' : Net} (W : Wf N) (W' : Wf N') (R : Refines lm N N') {v : ℕ} (hv : v ∈ N.nodes)
    (h : ∀ b, (N.g.args v).head? = some b → Quantised N.g b) : ∀ b, (N'.g.args v).head? = some b → Quantised N'.g b := by
  intro b hb
  rcases R.head hv hb with h1 | h1
  · exact .quant h1
  · exact R.quantised W W' (h b h1) (W.args v hv b (List.mem_of_mem_head? h1))

theorem state_insert {lm : LayerMap} {rank : ℕ → ℕ} {fuel : ℕ} {rq : Bool} {N0 N : Net} {todo : List ℕ} (hN0 : ∀ x ∈ N0.nodes, x < N0.g.next)
    (hnew : ∀ v m o, IsLayer lm N0 v m o → ¬ NewName m) (S : State lm rank fuel rq N0 N todo) {m : Name} (hm : NewName m) {b : ℕ} (hb : b ∈ N.nodes)
    (ex : List ℕ) : State lm rank fuel rq N0 (insertQuant N m b ex) todo := by
  have C' := came_insert S.came hN0 hm hb ex
  have R := insertQuant_refines lm S.came.wf hm b ex
  refine ⟨C', fun v hv m' o hl => pending_insert S.came.wf (S.pend v hv m' o hl) hm b ex, fun v hv m' o hl => ?_⟩
  have D := S.done v hv m' o hl
  have hvn := S.came.nodes v hl.node
  refine ⟨fun c q hc => ⟨?_, fun hq => ?_⟩, fun hr => R.requantised S.came.wf C'.wf (D.requantised hr) hvn⟩
  · exact doneMod_insert S.came.wf (D.replaced c q hc).1 (fun h => hnew v m' o hl (h ▸ hm)) b ex
  · exact R.headQuantised S.came.wf C'.wf hvn ((D.replaced c q hc).2 hq)

theorem state_insertAll {lm : LayerMap} {rank : ℕ → ℕ} {fuel : ℕ} {rq : Bool} {N0 : Net} {todo : List ℕ} (hN0 : ∀ x ∈ N0.nodes, x < N0.g.next)
    (hnew : ∀ v m o, IsLayer lm N0 v m o → ¬ NewName m) (l : List ℕ) : ∀ N : Net, State lm rank fuel rq N0 N todo → (∀ b ∈ l, b ∈ N.nodes) →
    State lm rank fuel rq N0 (l.foldl (fun N' b => insertQuant N' (.outputQuant b) b []) N) todo := by
  induction l with
  | nil => intro N S _; exact S
  | cons b l ih =>
    intro N S hl
    have hm : NewName (.outputQuant b) := ⟨b, Or.inr (Or.inl rfl)⟩
    refine ih (insertQuant N (.outputQuant b) b []) (state_insert hN0 hnew S hm (hl b (List.mem_cons_self ..)) []) fun c hc => ?_
    exact List.mem_append_left _ (hl c (List.mem_cons_of_mem _ hc))

/-- What does not change while quantisers are inserted. -/
theorem state_skip {lm : LayerMap} {rank : ℕ → ℕ} {fuel : ℕ} {rq : Bool} {N0 N : Net} {v : ℕ} {todo : List ℕ}
    (S : State lm rank fuel rq N0 N (v :: todo)) (h : ∀ m o, IsLayer lm N0 v m o → Handled lm rq N0 N v m o) : State lm rank fuel rq N0 N todo := by
  refine ⟨S.came, fun w hw => S.pend w (List.mem_cons_of_mem _ hw), fun w hw m o hl => ?_⟩
  by_cases hwv : w = v
  · subst hwv
    exact h m o hl
  · exact S.done w (by simp [hwv, hw]) m o hl

theorem state_replace {lm : LayerMap} {rank : ℕ → ℕ} {fuel : ℕ} {rq : Bool} {N0 N : Net} {v : ℕ} {todo : List ℕ} (hk : (N0.g.mods.map Prod.fst).Nodup)
    (hid : lm.inst "QuantIdentity" = false) (hL : N0.PlainLayers lm) (S : State lm rank fuel rq N0 N (v :: todo)) (hv : v ∉ todo) {m : Name} {o : ℕ}
    (hl : IsLayer lm N0 v m o) {c : String} {q : Bool} (hc : lm.entry (N0.cls o) = some (some (c, q)))
    (hin : q = false → ∀ b, (N.g.args v).head? = some b → Quantised N.g b) (hreq : rq = true → Requantised lm N v) :
    State lm rank fuel rq N0 (replaceLayer N o c) todo := by
  have P := S.pend v (List.mem_cons_self ..) m o hl
  have hrep : Replaced lm (N.cls o) := by
    rw [P.cls]
    exact ⟨hl.inst, (c, q), hc⟩
  have W := S.came.wf
  have C' := came_replace S.came c P.float P.bn hrep hid
  have R := replaceLayer_refines W c P.float P.bn
  refine ⟨C', fun w hw m' o' hl' => ?_, fun w hw m' o' hl' => ?_⟩
  · refine pending_replace W (S.pend w (List.mem_cons_of_mem _ hw) m' o' hl') ?_ c
    rintro rfl
    have hm : m' = m := P.name m' (S.pend w (List.mem_cons_of_mem _ hw) m' o' hl').mem
    subst hm
    exact hv (hL.once w hl'.node v hl.node m' o' hl'.op hl.op hl.mem hl.inst ▸ hw)
  · have hwn := S.came.nodes w hl'.node
    by_cases hwv : w = v
    · subst hwv
      have hm : m' = m := by
        have := hl.op.symm.trans hl'.op
        simpa using this.symm
      subst hm
      have ho : o' = o := by
        have h1 := mem_find hk hl'.mem
        have h2 := mem_find hk hl.mem
        rw [h1] at h2
        simpa using h2
      subst ho
      refine ⟨fun c' q' hc' => ?_, fun hr => R.requantised W C'.wf (hreq hr) hwn⟩
      rw [hc] at hc'
      simp only [Option.some.injEq, Prod.mk.injEq] at hc'
      obtain ⟨rfl, rfl⟩ := hc'
      refine ⟨⟨N.g.next, replaceFirst_unique _ _ _ _ P.mem P.name, Function.update_self _ _ _, Function.update_self _ _ _, S.came.next⟩, fun hq => ?_⟩
      exact R.headQuantised W C'.wf hwn (hin hq)
    · have D := S.done w (by simp [hwv, hw]) m' o' hl'
      refine ⟨fun c' q' hc' => ⟨?_, fun hq => ?_⟩, fun hr => R.requantised W C'.wf (D.requantised hr) hwn⟩
      · exact doneMod_replace W (D.replaced c' q' hc').1 P.old c
      · exact R.headQuantised W C'.wf hwn ((D.replaced c' q' hc').2 hq)

/-- The input of a layer is quantised. -/
theorem quantInput_spec {lm : LayerMap} {rank : ℕ → ℕ} {fuel : ℕ} {rq : Bool} {N0 N N1 : Net} {todo : List ℕ} (hN0 : ∀ x ∈ N0.nodes, x < N0.g.next)
    (hnew : ∀ v m o, IsLayer lm N0 v m o → ¬ NewName m) (C : Came lm rank fuel N0 N) (S1 : State lm rank fuel rq N0 N1 todo) (R : Refines lm N N1)
    {v : ℕ} (hv : v ∈ N0.nodes) (hvq : ¬ IsQuant N.g v) (hr : rq = true → Requantised lm N1 v) (q : Bool) :
    State lm rank fuel rq N0 (quantInput N N1 fuel v q) todo ∧ (rq = true → Requantised lm (quantInput N N1 fuel v q) v) ∧
      (q = false → ∀ b, ((quantInput N N1 fuel v q).g.args v).head? = some b → Quantised (quantInput N N1 fuel v q).g b) := by
  have W := C.wf
  have hvn := C.nodes v hv
  have hvn1 := S1.came.nodes v hv
  have hrank := (C.depth v hvn).resolve_left hvq
  unfold quantInput
  dsimp only
  by_cases hch : ((!(check N.g fuel false (N.g.args v) []).contains none && decide ((check N.g fuel false (N.g.args v) []).length ≤ 1)) || q) = true
  · rw [if_pos hch]
    refine ⟨S1, hr, fun hq => ?_⟩
    subst hq
    have hnone : none ∉ check N.g fuel false (N.g.args v) [] := by
      intro hc
      simp only [Bool.or_false, Bool.and_eq_true, Bool.not_eq_true'] at hch
      have := hch.1
      rw [List.contains_iff_mem.mpr hc] at this
      simp at this
    refine R.headQuantised W S1.came.wf hvn fun b hb => ?_
    refine check_quantised C.walk fuel _ _ _ hnone (fun a ha => ⟨W.args v hvn a ha, C.walk.raw v hvn hvq a ha, ?_⟩) b (List.mem_of_mem_head? hb)
    exact (C.walk.rank v hvn hvq a ha).imp_right fun h => by omega
  · rw [if_neg hch]
    split
    · next hargs =>
      refine ⟨S1, hr, fun _ b hb => ?_⟩
      rcases R.head hvn hb with h | h
      · exact .quant h
      · rw [hargs] at h; simp at h
    · next b l hargs =>
      have hm : NewName (.inputQuant v) := ⟨v, Or.inr (Or.inr rfl)⟩
      have hb : b ∈ N1.nodes := R.nodes b (W.args v hvn b (by rw [hargs]; simp))
      have S2 := state_insert hN0 hnew S1 hm hb ((N.users b).erase v)
      have R2 := insertQuant_refines lm S1.came.wf hm b ((N.users b).erase v)
      refine ⟨S2, fun h => R2.requantised S1.came.wf S2.came.wf (hr h) hvn1, fun _ b' hb' => ?_⟩
      have hex : v ∉ (N.users b).erase v := by
        intro hc
        exact ((List.Nodup.mem_erase_iff (W.nodup.filter _)).mp hc).1 rfl
      have hargs2 := insertQuant_args N1 (.inputQuant v) b ((N.users b).erase v) (S1.came.wf.nodes v hvn1).ne
      rw [if_neg hex] at hargs2
      rw [hargs2, List.head?_map] at hb'
      obtain ⟨b1, hb1, rfl⟩ := Option.map_eq_some_iff.mp hb'
      unfold subst
      split_ifs with h1
      · exact .quant (insertQuant_new S1.came.wf _ _ _)
      · rcases R.head hvn hb1 with h | h
        · exact .quant ((R2.isQuant_iff S1.came.wf S2.came.wf (S1.came.wf.args v hvn1 b1 (List.mem_of_mem_head? hb1))).mpr h)
        · rw [hargs] at h
          exact absurd (by simpa using h.symm) h1

/-- One node. -/
theorem state_step {lm : LayerMap} {rank : ℕ → ℕ} {fuel : ℕ} {rq : Bool} {N0 N : Net} {v : ℕ} {todo : List ℕ} (hk : (N0.g.mods.map Prod.fst).Nodup)
    (hN0 : ∀ x ∈ N0.nodes, x < N0.g.next) (hcalls : ∀ x ∈ N0.nodes, ∀ m, N0.g.op x = .call m → ∃ o, (m, o) ∈ N0.g.mods)
    (hnew : ∀ v m o, IsLayer lm N0 v m o → ¬ NewName m) (hid : lm.inst "QuantIdentity" = false) (hL : N0.PlainLayers lm)
    (S : State lm rank fuel rq N0 N (v :: todo)) (hv : v ∉ todo) (hvn : v ∈ N0.nodes) :
    ∃ N', handleNode lm fuel rq N v = some N' ∧ State lm rank fuel rq N0 N' todo := by
  have W := S.came.wf
  have hvN := S.came.nodes v hvn
  unfold handleNode
  rw [S.came.op v hvn]
  split
  · next m hop =>
    obtain ⟨o, ho⟩ := hcalls v hvn m hop
    by_cases hinst : lm.inst (N0.cls o) = true
    · have hl : IsLayer lm N0 v m o := ⟨hvn, hop, ho, hinst⟩
      have P := S.pend v (List.mem_cons_self ..) m o hl
      have hcls : N.clsOf m = N0.cls o := by rw [clsOf_mem W.names P.mem, P.cls]
      have hvq : ¬ IsQuant N.g v := by
        rintro ⟨m', h1, h2⟩
        rw [S.came.op v hvn, hop] at h1
        have : m = m' := by simpa using h1
        subst this
        rw [obj_mem W.names P.mem, P.float] at h2
        simp [Obj.actQuant] at h2
      rw [if_pos (by rw [hcls]; exact hinst), hcls]
      have hout : State lm rank fuel rq N0 (requantOutput N lm fuel rq v) (v :: todo) ∧ Refines lm N (requantOutput N lm fuel rq v) ∧
          (rq = true → Requantised lm (requantOutput N lm fuel rq v) v) := by
        unfold requantOutput
        have hmem : ∀ b ∈ (if rq then outputQuants N lm fuel v else []), b ∈ N.nodes := by
          intro b hb
          split_ifs at hb
          · exact outputQuants_mem N lm fuel v hvN b hb
          · simp at hb
        refine ⟨state_insertAll hN0 hnew _ N S hmem, (insertAll_refines lm newName_output _ N W hmem).2.1, fun hr => ?_⟩
        exact outputQuants_requantised W lm S.came.walk fuel S.came.depth _ hmem fuel v hvN hvq (by omega) fun b hb => by rw [if_pos hr]; exact hb
      obtain ⟨S1, R1, hr1⟩ := hout
      split
      · next h => exact absurd h (hL.known v hvn m o hop ho hinst)
      · next h =>
        refine ⟨_, rfl, state_skip S1 fun m' o' hl' => ⟨fun c q hc => ?_, hr1⟩⟩
        have hm : m' = m := by
          have := hl.op.symm.trans hl'.op
          simpa using this.symm
        subst hm
        have ho' : o' = o := by
          have h1 := mem_find hk hl'.mem
          have h2 := mem_find hk hl.mem
          rw [h1] at h2
          simpa using h2
        subst ho'
        rw [h] at hc
        simp at hc
      · next c q h =>
        obtain ⟨S2, hr2, hin⟩ := quantInput_spec hN0 hnew S.came S1 R1 hvn hvq hr1 q
        have hobj : N.g.objId m = o := objId_mem W.names P.mem
        rw [hobj]
        exact ⟨_, rfl, state_replace hk hid hL S2 hv hl h hin hr2⟩
    · have hinst' : lm.inst (N.clsOf m) = false := by
        rcases S.came.stay m o ho (fun h => hinst h.1) with ⟨h1, h2, _⟩ | ⟨_, o', h1, h2⟩
        · rw [clsOf_mem W.names h1, h2]; simpa using hinst
        · rw [clsOf_mem W.names h1, h2, hid]
      rw [if_neg (by rw [hinst']; simp)]
      refine ⟨_, rfl, state_skip S fun m' o' hl' => ?_⟩
      have hm : m' = m := by
        have := hop.symm.trans hl'.op
        simpa using this.symm
      subst hm
      have ho' : o' = o := by
        have h1 := mem_find hk hl'.mem
        have h2 := mem_find hk ho
        rw [h1] at h2
        simpa using h2
      subst ho'
      exact absurd hl'.inst hinst
  · next hop =>
    refine ⟨_, rfl, state_skip S fun m' o' hl' => ?_⟩
    exact absurd hl'.op (hop m')

theorem state_loop {lm : LayerMap} {rank : ℕ → ℕ} {fuel : ℕ} {rq : Bool} {N0 : Net} (hk : (N0.g.mods.map Prod.fst).Nodup)
    (hN0 : ∀ x ∈ N0.nodes, x < N0.g.next) (hcalls : ∀ x ∈ N0.nodes, ∀ m, N0.g.op x = .call m → ∃ o, (m, o) ∈ N0.g.mods)
    (hnew : ∀ v m o, IsLayer lm N0 v m o → ¬ NewName m) (hid : lm.inst "QuantIdentity" = false) (hL : N0.PlainLayers lm) (todo : List ℕ) :
    ∀ N : Net, todo.Nodup → (∀ v ∈ todo, v ∈ N0.nodes) → State lm rank fuel rq N0 N todo →
      ∃ N', todo.foldlM (handleNode lm fuel rq) N = some N' ∧ State lm rank fuel rq N0 N' [] := by
  induction todo with
  | nil => intro N _ _ S; exact ⟨N, rfl, S⟩
  | cons v todo ih =>
    intro N hnd hn S
    rw [List.nodup_cons] at hnd
    obtain ⟨N1, h1, S1⟩ := state_step hk hN0 hcalls hnew hid hL S hnd.1 (hn v (List.mem_cons_self ..))
    obtain ⟨N', h2, S'⟩ := ih N1 hnd.2 (fun w hw => hn w (List.mem_cons_of_mem _ hw)) S1
    refine ⟨N', ?_, S'⟩
    rw [List.foldlM_cons, h1]
    exact h2

theorem Net.Proper.wf {N : Net} {rank : ℕ → ℕ} {depth : ℕ} (hP : N.Proper rank depth) : Wf N :=
  ⟨hP.names, fun e he ⟨n, hn⟩ => hP.taken e he n hn, hP.objs, hP.nodup, hP.nodes, hP.args, hP.calls⟩

theorem Net.Proper.walkable {N : Net} {rank : ℕ → ℕ} {depth : ℕ} (hP : N.Proper rank depth) (hI : N.InputsQuantised) : Walkable N.g N.nodes rank :=
  ⟨hP.args, fun x hx hq a ha => Classical.or_iff_not_imp_left.mpr (hP.ranked x hx hq a ha), fun x hx hq a ha hr => hq (hI x hx a ha hr)⟩

theorem handler_state {lm : LayerMap} {N : Net} {rank : ℕ → ℕ} (fuel : ℕ) (requantize : Bool) (hP : N.Proper rank fuel) (hL : N.PlainLayers lm)
    (hI : N.InputsQuantised) (hid : lm.inst "QuantIdentity" = false) :
    ∃ N', layerHandler lm fuel requantize N = some N' ∧ State lm rank fuel requantize N N' [] := by
  have W := hP.wf
  have C : Came lm rank fuel N N := ⟨W, hP.walkable hI, fun x hx => Classical.or_iff_not_imp_left.mpr (hP.depth x hx), fun _ h => h, fun _ _ => rfl,
    le_refl _, fun x _ => List.forall₂_same.mpr fun a _ => .refl a, fun m o h _ => Or.inl ⟨h, rfl, rfl⟩⟩
  have hnew : ∀ v m o, IsLayer lm N v m o → ¬ NewName m := by
    intro v m o hl hn
    have := W.taken _ hl.mem hn
    rw [(hL.float v hl.node m o hl.op hl.mem hl.inst).1] at this
    simp [Obj.actQuant] at this
  have S : State lm rank fuel requantize N N N.nodes := by
    refine ⟨C, fun v _ m o hl => ?_, fun v hv m o hl => absurd hl.node hv⟩
    obtain ⟨h1, h2⟩ := hL.float v hl.node m o hl.op hl.mem hl.inst
    exact ⟨hl.mem, rfl, h1, h2, hL.name v hl.node m o hl.op hl.mem hl.inst, hP.objs _ hl.mem⟩
  exact state_loop hP.names hP.nodes hP.calls hnew hid hL N.nodes N hP.nodup (fun _ h => h) S

end Brevitas.Residual
