import Verif.Lemmas.LayerLoop

/-! # The quantisers of network inputs and of additions -/

namespace Brevitas.Residual

theorem newName_quant (b : ℕ) : NewName (.quant b) := ⟨b, Or.inl rfl⟩

theorem Refines.proper {lm : LayerMap} {N N' : Net} {rank : ℕ → ℕ} {depth : ℕ} (hP : N.Proper rank depth) (W' : Wf N') (R : Refines lm N N') :
    N'.Proper rank depth where
  names := W'.names
  taken := fun e he n hn => W'.taken e he ⟨n, hn⟩
  objs := W'.objs
  nodup := W'.nodup
  nodes := W'.nodes
  args := W'.args
  ranked := by
    intro x hx hq a ha hqa
    have hx0 := (R.fresh x hx).resolve_right hq
    obtain ⟨i, hi, rfl⟩ := List.mem_iff_getElem.mp ha
    have hl := (R.args x hx0).length_eq
    have h2 := (List.forall₂_iff_get.mp (R.args x hx0)).2 i hi (by omega)
    simp only [List.get_eq_getElem] at h2
    have h3 := h2.resolve_right hqa
    rw [h3] at hqa ⊢
    have hm : (N.g.args x)[i] ∈ N.g.args x := List.getElem_mem _
    exact hP.ranked x hx0 (fun hc => hq ((R.isQuant_iff hP.wf W' hx0).mpr hc)) _ hm
      fun hc => hqa ((R.isQuant_iff hP.wf W' (hP.args x hx0 _ hm)).mpr hc)
  depth := fun x hx hq => by
    have hx0 := (R.fresh x hx).resolve_right hq
    exact hP.depth x hx0 fun hc => hq ((R.isQuant_iff hP.wf W' hx0).mpr hc)
  calls := W'.calls

theorem insertQuant_plain {N : Net} (W : Wf N) {lm : LayerMap} (hid : lm.inst "QuantIdentity" = false) (hL : N.PlainLayers lm) (m : Name) (b : ℕ)
    (ex : List ℕ) : (insertQuant N m b ex).PlainLayers lm := by
  have key : ∀ x ∈ (insertQuant N m b ex).nodes, ∀ m' o, (insertQuant N m b ex).g.op x = .call m' → (m', o) ∈ (insertQuant N m b ex).g.mods →
      lm.inst ((insertQuant N m b ex).cls o) = true → x ∈ N.nodes ∧ N.g.op x = .call m' ∧ (m', o) ∈ N.g.mods ∧ o ≠ N.g.next ∧
        (insertQuant N m b ex).cls o = N.cls o ∧ (insertQuant N m b ex).g.objs o = N.g.objs o := by
    intro x hx m' o hop ho hi
    rcases (insertQuant_mods W m b ex _ _).mp ho with ⟨_, h⟩ | ⟨hne, h⟩
    · have hc : (insertQuant N m b ex).cls o = "QuantIdentity" := by rw [h]; exact Function.update_self _ _ _
      rw [hc, hid] at hi
      simp at hi
    have hon := (W.objs _ h).ne
    rcases List.mem_append.mp hx with hx | hx
    · refine ⟨hx, ?_, h, hon, Function.update_of_ne hon _ _, Function.update_of_ne hon _ _⟩
      rw [← hop]
      exact (Function.update_of_ne (W.nodes x hx).ne _ _).symm
    · have hx' : x = N.g.next := by simpa using hx
      have h2 : (insertQuant N m b ex).g.op N.g.next = .call m := Function.update_self _ _ _
      rw [hx', h2] at hop
      exact absurd (Op.call.inj hop).symm hne
  refine ⟨?_, ?_, ?_, ?_⟩
  · intro x hx m' o hop ho hi
    obtain ⟨h1, h2, h3, _, h5, _⟩ := key x hx m' o hop ho hi
    rw [h5] at hi ⊢
    exact hL.known x h1 m' o h2 h3 hi
  · intro x hx m' o hop ho hi
    obtain ⟨h1, h2, h3, _, h5, h6⟩ := key x hx m' o hop ho hi
    rw [h5] at hi ⊢
    rw [h6]
    exact hL.float x h1 m' o h2 h3 hi
  · intro x hx m' o hop ho hi m'' ho'
    obtain ⟨h1, h2, h3, h4, h5, _⟩ := key x hx m' o hop ho hi
    rw [h5] at hi
    rcases (insertQuant_mods W m b ex _ _).mp ho' with ⟨_, h⟩ | ⟨_, h⟩
    · exact absurd h h4
    · exact hL.name x h1 m' o h2 h3 hi m'' h
  · intro x hx y hy m' o hopx hopy ho hi
    obtain ⟨h1, h2, h3, _, h5, _⟩ := key x hx m' o hopx ho hi
    obtain ⟨h1', h2', _⟩ := key y hy m' o hopy ho hi
    rw [h5] at hi
    exact hL.once x h1 y h1' m' o h2 h2' h3 hi

theorem insertAll_plain {lm : LayerMap} (hid : lm.inst "QuantIdentity" = false) {nm : ℕ → Name} (l : List ℕ) :
    ∀ N : Net, Wf N → N.PlainLayers lm → (∀ b ∈ l, b ∈ N.nodes) → (l.foldl (fun N' b => insertQuant N' (nm b) b []) N).PlainLayers lm := by
  induction l with
  | nil => intro N _ h _; exact h
  | cons b l ih =>
    intro N W h hl
    exact ih (insertQuant N (nm b) b []) (insertQuant_wf W [] (hl b (List.mem_cons_self ..))) (insertQuant_plain W hid h _ _ _)
      fun c hc => List.mem_append_left _ (hl c (List.mem_cons_of_mem _ hc))

/-- Only quantisers read node `b`. -/
def OnlyQuant (N : Net) (b : ℕ) : Prop := ∀ u ∈ N.nodes, b ∈ N.g.args u → IsQuant N.g u

theorem Refines.onlyQuant {lm : LayerMap} {N N' : Net} (W : Wf N) (W' : Wf N') (R : Refines lm N N') {b : ℕ} (hb : b ∈ N.nodes) (h : OnlyQuant N b) :
    OnlyQuant N' b := by
  intro u hu hr
  rcases R.reads u hu b hb hr with ⟨h1, h2⟩ | h1
  · exact (R.isQuant_iff W W' h1).mpr (h u h1 h2)
  · exact h1

theorem insertQuant_only {N : Net} (W : Wf N) (m : Name) {b : ℕ} (hb : b ∈ N.nodes) : OnlyQuant (insertQuant N m b []) b := by
  intro u hu h
  rcases List.mem_append.mp hu with hu | hu
  · rw [insertQuant_args N m b [] (W.nodes u hu).ne, if_neg (by simp)] at h
    obtain ⟨y, hy, hyc⟩ := List.mem_map.mp h
    unfold subst at hyc
    split_ifs at hyc with h1
    · exact absurd (hyc ▸ W.nodes b hb) (lt_irrefl _)
    · exact absurd hyc h1
  · have : u = N.g.next := by simpa using hu
    subst this
    exact insertQuant_new W m b []

theorem insertAll_only {nm : ℕ → Name} (hnm : ∀ b, NewName (nm b)) (l : List ℕ) : ∀ N : Net, Wf N → (∀ b ∈ l, b ∈ N.nodes) →
    ∀ b ∈ l, OnlyQuant (l.foldl (fun N' b => insertQuant N' (nm b) b []) N) b := by
  induction l with
  | nil => intro N _ _ b hb; simp at hb
  | cons c l ih =>
    intro N W hl b hb
    have hc := hl c (List.mem_cons_self ..)
    have W1 : Wf (insertQuant N (nm c) c []) := insertQuant_wf W [] hc
    have hl' : ∀ b ∈ l, b ∈ (insertQuant N (nm c) c []).nodes := fun b hb => List.mem_append_left _ (hl b (List.mem_cons_of_mem _ hb))
    obtain ⟨W2, R2, _⟩ := insertAll_refines ⟨fun _ => false, fun _ => none, fun _ => false⟩ hnm l _ W1 hl'
    rcases List.mem_cons.mp hb with rfl | hb
    · exact R2.onlyQuant W1 W2 (List.mem_append_left _ hc) (insertQuant_only W _ hc)
    · exact ih _ W1 hl' b hb

/-- What stays of `N0` in `N`. -/
structure Stays (N0 N : Net) : Prop where
  nodes : ∀ x ∈ N0.nodes, x ∈ N.nodes
  op : ∀ x ∈ N0.nodes, N.g.op x = N0.g.op x
  next : N0.g.next ≤ N.g.next
  wiring : ∀ x ∈ N0.nodes, List.Forall₂ (After N0.nodes N) (N.g.args x) (N0.g.args x)
  mods : ∀ m o, (m, o) ∈ N0.g.mods → ¬ NewName m → (m, o) ∈ N.g.mods ∧ N.cls o = N0.cls o ∧ N.g.objs o = N0.g.objs o

theorem stays_insert {N0 N : Net} (hN0 : ∀ x ∈ N0.nodes, x < N0.g.next) (W : Wf N) (S : Stays N0 N) {m : Name} (hm : NewName m) {b : ℕ}
    (hb : b ∈ N.nodes) : Stays N0 (insertQuant N m b []) := by
  have R := insertQuant_refines ⟨fun _ => false, fun _ => none, fun _ => false⟩ W hm b []
  have hlt : ∀ x ∈ N0.nodes, x < N.g.next := fun x hx => lt_of_lt_of_le (hN0 x hx) S.next
  refine ⟨fun x hx => R.nodes x (S.nodes x hx), fun x hx => by rw [R.op x (S.nodes x hx), S.op x hx], Nat.le_succ_of_le S.next, fun x hx => ?_,
    fun m' o h1 h2 => ?_⟩
  · rw [insertQuant_args N m b [] (hlt x hx).ne, if_neg (by simp), List.forall₂_map_left_iff]
    exact (S.wiring x hx).imp fun _ _ h =>
      (after_insert (lm := ⟨fun _ => false, fun _ => none, fun _ => false⟩) W hlt hm hb [] h).2
  · obtain ⟨h3, h4, h5⟩ := S.mods m' o h1 h2
    have hne := (W.objs _ h3).ne
    refine ⟨(insertQuant_mods W m b [] _ _).mpr (Or.inr ⟨fun hc => h2 (hc ▸ hm), h3⟩), ?_, ?_⟩
    · rw [← h4]; exact Function.update_of_ne hne _ _
    · rw [← h5]; exact Function.update_of_ne hne _ _

theorem stays_insertAll {N0 : Net} (hN0 : ∀ x ∈ N0.nodes, x < N0.g.next) {nm : ℕ → Name} (hnm : ∀ b, NewName (nm b)) (l : List ℕ) :
    ∀ N : Net, Wf N → Stays N0 N → (∀ b ∈ l, b ∈ N.nodes) → Stays N0 (l.foldl (fun N' b => insertQuant N' (nm b) b []) N) := by
  induction l with
  | nil => intro N _ h _; exact h
  | cons b l ih =>
    intro N W h hl
    have hb := hl b (List.mem_cons_self ..)
    exact ih (insertQuant N (nm b) b []) (insertQuant_wf W [] hb) (stays_insert hN0 W h (hnm b) hb)
      fun c hc => List.mem_append_left _ (hl c (List.mem_cons_of_mem _ hc))

theorem Stays.refl (N : Net) : Stays N N :=
  ⟨fun _ h => h, fun _ _ => rfl, le_refl _, fun _ _ => List.forall₂_same.mpr fun a _ => .refl a, fun _ _ h _ => ⟨h, rfl, rfl⟩⟩

theorem Stays.objId {N N' : Net} (W' : Wf N') (S : Stays N N') {m : Name} {o : ℕ} (h : (m, o) ∈ N.g.mods)
    (hm : ∀ n, m ≠ .quant n ∧ m ≠ .outputQuant n ∧ m ≠ .inputQuant n) : N'.g.objId m = o ∧ N'.cls o = N.cls o ∧ N'.g.objs o = N.g.objs o := by
  obtain ⟨h1, h2, h3⟩ := S.mods m o h fun ⟨n, hn⟩ => by
    rcases hn with hn | hn | hn
    · exact (hm n).1 hn
    · exact (hm n).2.1 hn
    · exact (hm n).2.2 hn
  exact ⟨objId_mem W'.names h1, h2, h3⟩

/-- Raw values are read by the quantisers they were read by before, or by new ones. -/
theorem Refines.inputsQuantised {lm : LayerMap} {N N' : Net} (W : Wf N) (W' : Wf N') (R : Refines lm N N') (hI : N.InputsQuantised) :
    N'.InputsQuantised := by
  intro x hx a ha hraw
  have han := W'.args x hx a ha
  have hnq : ¬ IsQuant N'.g a := by
    rintro ⟨m, hop, _⟩
    rw [hop] at hraw
    simp at hraw
  have ha0 := (R.fresh a han).resolve_right hnq
  rw [R.op a ha0] at hraw
  rcases R.reads x hx a ha0 ha with ⟨h1, h2⟩ | h1
  · exact (R.isQuant_iff W W' h1).mpr (hI x h1 a h2 hraw)
  · exact h1

end Brevitas.Residual
