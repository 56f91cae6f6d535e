import Verif.Lemmas.LayerLoop

/-! # Layers that are called twice -/

namespace Brevitas.Residual

/-- What holds until the second call. -/
structure Shared (ns : List ℕ) (N : Net) (m : Name) (o : ℕ) (x y : ℕ) : Prop where
  names : (N.g.mods.map Prod.fst).Nodup
  objs : ∀ e ∈ N.g.mods, e.2 < N.g.next
  mem : (m, o) ∈ N.g.mods
  opx : N.g.op x = .call m
  opy : N.g.op y = .call m
  ltx : x < N.g.next
  lty : y < N.g.next
  new : ¬ NewName m
  calls : ∀ w ∈ ns, w < N.g.next ∧ ∀ m', N.g.op w = .call m' → ∃ o', (m', o') ∈ N.g.mods

theorem shared_insert {ns : List ℕ} {N : Net} {m : Name} {o x y : ℕ} (S : Shared ns N m o x y) {m' : Name} (hm' : NewName m') (b : ℕ) (ex : List ℕ) :
    Shared ns (insertQuant N m' b ex) m o x y ∧ (insertQuant N m' b ex).cls o = N.cls o ∧
      ∀ m'' , (m'', o) ∈ (insertQuant N m' b ex).g.mods → (m'', o) ∈ N.g.mods := by
  have hmods : ∀ x p, (x, p) ∈ (insertQuant N m' b ex).g.mods ↔ (x = m' ∧ p = N.g.next) ∨ (x ≠ m' ∧ (x, p) ∈ N.g.mods) :=
    setName_mem _ _ _ S.names
  have hne := (S.objs _ S.mem).ne
  refine ⟨⟨(setName_keys _ _ _ S.names).1, fun e he => ?_, (hmods _ _).mpr (Or.inr ⟨fun h => S.new (h ▸ hm'), S.mem⟩), ?_, ?_,
    Nat.lt_succ_of_lt S.ltx, Nat.lt_succ_of_lt S.lty, S.new, fun w hw => ⟨Nat.lt_succ_of_lt (S.calls w hw).1, fun k hk => ?_⟩⟩, Function.update_of_ne hne _ _, fun m'' h => ?_⟩
  · show e.2 < N.g.next + 1
    rcases (hmods e.1 e.2).mp he with ⟨_, h⟩ | ⟨_, h⟩
    · omega
    · have := S.objs _ h; omega
  · rw [← S.opx]; exact Function.update_of_ne S.ltx.ne _ _
  · rw [← S.opy]; exact Function.update_of_ne S.lty.ne _ _
  · have hk' : N.g.op w = .call k := by
      rw [← hk]
      exact (Function.update_of_ne (S.calls w hw).1.ne _ _).symm
    obtain ⟨o', ho'⟩ := (S.calls w hw).2 k hk'
    by_cases he : k = m'
    · exact ⟨N.g.next, (hmods _ _).mpr (Or.inl ⟨he, rfl⟩)⟩
    · exact ⟨o', (hmods _ _).mpr (Or.inr ⟨he, ho'⟩)⟩
  · rcases (hmods m'' o).mp h with ⟨_, h⟩ | ⟨_, h⟩
    · exact absurd h hne
    · exact h

/-- The same, with what is known of the class and the names of the module. -/
structure SharedAs (ns : List ℕ) (N : Net) (m : Name) (o x y : ℕ) (P : String → Prop) : Prop where
  shared : Shared ns N m o x y
  cls : P (N.cls o)
  name : ∀ m', (m', o) ∈ N.g.mods → m' = m

theorem sharedAs_insert {ns : List ℕ} {N : Net} {m : Name} {o x y : ℕ} {P : String → Prop} (S : SharedAs ns N m o x y P) {m' : Name} (hm' : NewName m')
    (b : ℕ) (ex : List ℕ) : SharedAs ns (insertQuant N m' b ex) m o x y P := by
  obtain ⟨h1, h2, h3⟩ := shared_insert S.shared hm' b ex
  exact ⟨h1, by rw [h2]; exact S.cls, fun m'' h => S.name m'' (h3 m'' h)⟩

theorem sharedAs_output {lm : LayerMap} {ns : List ℕ} {N : Net} {m : Name} {o x y : ℕ} {P : String → Prop} (S : SharedAs ns N m o x y P) (fuel : ℕ) (rq : Bool) (v : ℕ) :
    SharedAs ns (requantOutput N lm fuel rq v) m o x y P := by
  unfold requantOutput
  generalize (if rq then outputQuants N lm fuel v else []) = l
  induction l generalizing N with
  | nil => exact S
  | cons b l ih => exact ih (N := insertQuant N (.outputQuant b) b []) (sharedAs_insert S ⟨b, Or.inr (Or.inl rfl)⟩ b [])

theorem sharedAs_input {ns : List ℕ} {N N1 : Net} {m : Name} {o x y : ℕ} {P : String → Prop} (S : SharedAs ns N1 m o x y P) (fuel v : ℕ) (q : Bool) :
    SharedAs ns (quantInput N N1 fuel v q) m o x y P := by
  unfold quantInput
  dsimp only
  split
  · exact S
  · split
    · exact S
    · exact sharedAs_insert S ⟨v, Or.inr (Or.inr rfl)⟩ _ _

theorem sharedAs_replace {ns : List ℕ} {N : Net} {m : Name} {o x y : ℕ} {P : String → Prop} (S : SharedAs ns N m o x y P) {old : ℕ} (hne : o ≠ old)
    (c : String) : SharedAs ns (replaceLayer N old c) m o x y P := by
  have hne' := (S.shared.objs _ S.shared.mem).ne
  refine ⟨⟨?_, fun e he => ?_, replaceFirst_keep _ _ _ _ S.shared.mem hne, S.shared.opx, S.shared.opy, Nat.lt_succ_of_lt S.shared.ltx,
    Nat.lt_succ_of_lt S.shared.lty, S.shared.new, fun w hw => ⟨Nat.lt_succ_of_lt (S.shared.calls w hw).1, fun k hk => ?_⟩⟩, ?_, fun m' h => ?_⟩
  · rw [replaceLayer_mods, replaceFirst_keys]; exact S.shared.names
  · show e.2 < N.g.next + 1
    rcases replaceFirst_mem _ _ _ _ he with h | ⟨h, _⟩
    · have := S.shared.objs _ h; omega
    · omega
  · obtain ⟨o', ho'⟩ := (S.shared.calls w hw).2 k hk
    rcases replaceFirst_cases _ N.g.next N.g.mods k o' ho' with h | ⟨_, h⟩
    · exact ⟨_, h⟩
    · exact ⟨_, h⟩
  · have : (replaceLayer N old c).cls o = N.cls o := Function.update_of_ne hne' _ _
    rw [this]; exact S.cls
  · rcases replaceFirst_mem _ _ _ _ h with h | ⟨h, _⟩
    · exact S.name m' h
    · exact absurd h hne'

/-- Replacing the module itself. -/
theorem sharedAs_self {ns : List ℕ} {N : Net} {m : Name} {o x y : ℕ} {P Q : String → Prop} (S : SharedAs ns N m o x y P) {c : String} (hc : Q c) :
    SharedAs ns (replaceLayer N o c) m N.g.next x y Q := by
  refine ⟨⟨?_, fun e he => ?_, replaceFirst_unique _ _ _ _ S.shared.mem S.name, S.shared.opx, S.shared.opy, Nat.lt_succ_of_lt S.shared.ltx,
    Nat.lt_succ_of_lt S.shared.lty, S.shared.new, fun w hw => ⟨Nat.lt_succ_of_lt (S.shared.calls w hw).1, fun k hk => ?_⟩⟩, ?_, fun m' h => ?_⟩
  · rw [replaceLayer_mods, replaceFirst_keys]; exact S.shared.names
  · show e.2 < N.g.next + 1
    rcases replaceFirst_mem _ _ _ _ he with h | ⟨h, _⟩
    · have := S.shared.objs _ h; omega
    · omega
  · obtain ⟨o', ho'⟩ := (S.shared.calls w hw).2 k hk
    rcases replaceFirst_cases _ N.g.next N.g.mods k o' ho' with h | ⟨_, h⟩
    · exact ⟨_, h⟩
    · exact ⟨_, h⟩
  · have : (replaceLayer N o c).cls N.g.next = c := Function.update_self _ _ _
    rw [this]; exact hc
  · rcases replaceFirst_mem _ _ _ _ h with h | ⟨_, h⟩
    · exact absurd (S.shared.objs _ h) (lt_irrefl _)
    · exact S.name m' h

/-- A module of a class that is not in the map stays until it is called. -/
theorem shared_unknown {lm : LayerMap} {ns : List ℕ} {N : Net} {m : Name} {o x y : ℕ} (S : SharedAs ns N m o x y fun c => lm.inst c = true ∧ lm.entry c = none)
    (fuel : ℕ) (rq : Bool) (w : ℕ) (N' : Net) (h : handleNode lm fuel rq N w = some N') :
    SharedAs ns N' m o x y (fun c => lm.inst c = true ∧ lm.entry c = none) ∧ N.g.op w ≠ .call m := by
  have hw : N.g.op w ≠ .call m := by
    intro hop
    unfold handleNode at h
    rw [hop] at h
    dsimp only at h
    rw [clsOf_mem S.shared.names S.shared.mem, if_pos S.cls.1, S.cls.2] at h
    simp at h
  refine ⟨?_, hw⟩
  unfold handleNode at h
  split at h
  · next m' hop =>
    split_ifs at h
    · split at h
      · simp at h
      · simp only [Option.some.injEq] at h
        exact h ▸ sharedAs_output S fuel rq w
      · next c q he =>
        simp only [Option.some.injEq] at h
        subst h
        refine sharedAs_replace (sharedAs_input (sharedAs_output S fuel rq w) fuel w q) ?_ c
        intro hc
        unfold Net.clsOf at he
        rw [← hc, S.cls.2] at he
        simp at he
    · simp only [Option.some.injEq] at h
      exact h ▸ S
  · simp only [Option.some.injEq] at h
    exact h ▸ S

/-- A layer that is to be replaced stays until it is called. -/
theorem shared_known {lm : LayerMap} {ns : List ℕ} {N : Net} {m : Name} {o x y : ℕ} {c0 c : String} {q : Bool} (S : SharedAs ns N m o x y fun d => d = c0)
    (hinst : lm.inst c0 = true) (he : lm.entry c0 = some (some (c, q))) (hc : lm.inst c = true ∧ lm.entry c = none)
    (fuel : ℕ) (rq : Bool) (w : ℕ) (hwn : w ∈ ns) (N' : Net) (h : handleNode lm fuel rq N w = some N') :
    (N.g.op w ≠ .call m ∧ SharedAs ns N' m o x y fun d => d = c0) ∨
      (N.g.op w = .call m ∧ ∃ o', SharedAs ns N' m o' x y fun d => lm.inst d = true ∧ lm.entry d = none) := by
  unfold handleNode at h
  by_cases hw : N.g.op w = .call m
  · right
    refine ⟨hw, ?_⟩
    rw [hw] at h
    dsimp only at h
    rw [clsOf_mem S.shared.names S.shared.mem, S.cls, if_pos hinst, he] at h
    simp only [Option.some.injEq] at h
    subst h
    rw [objId_mem S.shared.names S.shared.mem]
    exact ⟨_, sharedAs_self (sharedAs_input (sharedAs_output S fuel rq w) fuel w q) hc⟩
  · left
    refine ⟨hw, ?_⟩
    split at h
    · next m' hop =>
      split_ifs at h with hi
      · split at h
        · simp at h
        · simp only [Option.some.injEq] at h
          exact h ▸ sharedAs_output S fuel rq w
        · next c' q' he' =>
          simp only [Option.some.injEq] at h
          subst h
          refine sharedAs_replace (sharedAs_input (sharedAs_output S fuel rq w) fuel w q') ?_ c'
          intro hc'
          obtain ⟨o', ho'⟩ := (S.shared.calls w hwn).2 m' hop
          rw [objId_mem S.shared.names ho'] at hc'
          exact hw (hop.trans (by rw [S.name m' (hc' ▸ ho')]))
      · simp only [Option.some.injEq] at h
        exact h ▸ S
    · simp only [Option.some.injEq] at h
      exact h ▸ S

theorem unknown_loop {lm : LayerMap} {ns : List ℕ} {m : Name} {o x y : ℕ} (fuel : ℕ) (rq : Bool) (l : List ℕ) : ∀ N : Net,
    SharedAs ns N m o x y (fun c => lm.inst c = true ∧ lm.entry c = none) → y ∈ l → l.foldlM (handleNode lm fuel rq) N = none := by
  induction l with
  | nil => intro N _ hy; simp at hy
  | cons w l ih =>
    intro N S hy
    rw [List.foldlM_cons]
    cases h : handleNode lm fuel rq N w with
    | none => rfl
    | some N1 =>
      obtain ⟨S1, hw⟩ := shared_unknown S fuel rq w N1 h
      rcases List.mem_cons.mp hy with rfl | hy
      · exact absurd S.shared.opy hw
      · exact ih N1 S1 hy

theorem known_loop {lm : LayerMap} {ns : List ℕ} {m : Name} {o x y : ℕ} {c0 c : String} {q : Bool} (hinst : lm.inst c0 = true)
    (he : lm.entry c0 = some (some (c, q))) (hc : lm.inst c = true ∧ lm.entry c = none) (fuel : ℕ) (rq : Bool) (l1 l2 : List ℕ) : ∀ N : Net,
    SharedAs ns N m o x y (fun d => d = c0) → (∀ w ∈ l1 ++ x :: l2, w ∈ ns) → y ∈ l2 → (l1 ++ x :: l2).foldlM (handleNode lm fuel rq) N = none := by
  induction l1 with
  | nil =>
    intro N S hns hy
    rw [List.nil_append, List.foldlM_cons]
    cases h : handleNode lm fuel rq N x with
    | none => rfl
    | some N1 =>
      rcases shared_known S hinst he hc fuel rq x (hns x (by simp)) N1 h with ⟨h1, _⟩ | ⟨_, o', h1⟩
      · exact absurd S.shared.opx h1
      · exact unknown_loop fuel rq l2 N1 h1 hy
  | cons w l1 ih =>
    intro N S hns hy
    rw [List.cons_append, List.foldlM_cons]
    cases h : handleNode lm fuel rq N w with
    | none => rfl
    | some N1 =>
      rcases shared_known S hinst he hc fuel rq w (hns w (by simp)) N1 h with ⟨_, h1⟩ | ⟨_, o', h1⟩
      · exact ih N1 h1 (fun v hv => hns v (List.mem_cons_of_mem _ hv)) hy
      · exact unknown_loop fuel rq _ N1 h1 (by simp [hy])

end Brevitas.Residual
