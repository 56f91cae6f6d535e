import Verif.Model.Standardize
import Std.Data.String.ToNat
import Mathlib.Data.List.Nodup

/-!
# C86: giving every call of a stateless module its own copy does not change what the graph computes
-/

namespace Brevitas.Standardize

open Brevitas.Fx (Arg)

variable {V : Type*}

/-! ### Names -/

theorem dupName_toList (name : String) (k : ℕ) : (dupName name k).toList = name.toList ++ '_' :: Nat.toDigits 10 k := by
  simp [dupName, String.toList_append, Nat.toList_repr]

private theorem split_last {l l' r r' : List Char} (hr : '_' ∉ r) (hr' : '_' ∉ r') (h : l ++ '_' :: r = l' ++ '_' :: r') :
    l = l' ∧ r = r' := by
  rcases List.append_eq_append_iff.mp h with ⟨a, h1, h2⟩ | ⟨a, h1, h2⟩
  · cases a with
    | nil => simp at h1 h2; exact ⟨h1.symm, h2⟩
    | cons c a =>
      simp only [List.cons_append, List.cons.injEq] at h2
      exact absurd (by rw [h2.2]; simp) hr
  · cases a with
    | nil => simp at h1 h2; exact ⟨h1, h2.symm⟩
    | cons c a =>
      simp only [List.cons_append, List.cons.injEq] at h2
      exact absurd (by rw [h2.2]; simp) hr'

/-- Different modules or different counts give different names. -/
theorem dupName_inj {a b : String} {j k : ℕ} (h : dupName a j = dupName b k) : a = b ∧ j = k := by
  have h' := congrArg String.toList h
  rw [dupName_toList, dupName_toList] at h'
  obtain ⟨h1, h2⟩ := split_last Nat.underscore_not_in_toDigits Nat.underscore_not_in_toDigits h'
  refine ⟨String.toList_injective h1, ?_⟩
  rw [← Nat.ofDigitChars_ten_toDigits (n := j), h2, Nat.ofDigitChars_ten_toDigits]

theorem dupName_ne_self (a : String) (k : ℕ) : dupName a k ≠ a := by
  intro h
  have := congrArg (fun s => s.toList.length) h
  simp only [dupName_toList, List.length_append, List.length_cons] at this
  omega

/-! ### The table of modules -/

theorem getModule_set (t u : String) (m : Mod V) (mods : Mods V) :
    getModule (setModule t m mods) u = if u = t then some m else getModule mods u := by
  induction mods with
  | nil =>
    by_cases h : u = t
    · simp [setModule, getModule, h]
    · rw [if_neg h]
      simp [setModule, getModule, Ne.symm h]
  | cons e r ih =>
    unfold setModule
    by_cases he : e.1 = t
    · rw [if_pos he]
      by_cases h : u = t
      · simp [getModule, h]
      · have h1 : ¬t = u := fun h' => h h'.symm
        have h2 : ¬e.1 = u := by rw [he]; exact h1
        simp [getModule, h, h1, h2]
    · rw [if_neg he]
      by_cases hu : e.1 = u
      · have : u ≠ t := by rw [← hu]; exact he
        simp [getModule, hu, this]
      · have : getModule (e :: setModule t m r) u = getModule (setModule t m r) u := by simp [getModule, hu]
        rw [this, ih]
        by_cases h : u = t
        · rw [if_pos h, if_pos h]
        · rw [if_neg h, if_neg h]; simp [getModule, hu]

/-! ### One module -/

/-- What the pass does to a node. -/
private def Step (name : String) (mod : Mod V) (mods' : Mods V) (n n' : Node) : Prop :=
  n' = n ∨ (n.strTarget = true ∧ n.target = name ∧
    ∃ k, n' = { n with target := dupName name (k + 1) } ∧ getModule mods' (dupName name (k + 1)) = some mod)

private theorem dupPass_spec (name : String) (mod : Mod V) (g : List Node) (count : Option ℕ) (mods : Mods V) :
    (∀ t, (∀ k, t ≠ dupName name (k + 1)) → getModule (dupPass name mod g count mods).2 t = getModule mods t) ∧
    (∀ t, getModule mods t = some mod → getModule (dupPass name mod g count mods).2 t = some mod) ∧
    List.Forall₂ (Step name mod (dupPass name mod g count mods).2) g (dupPass name mod g count mods).1 := by
  induction g generalizing count mods with
  | nil => exact ⟨fun _ _ => rfl, fun _ h => h, .nil⟩
  | cons n g ih =>
    unfold dupPass
    by_cases h : n.strTarget = true ∧ n.target = name
    · rw [if_pos h]
      cases count with
      | none =>
        obtain ⟨h1, h2, h3⟩ := ih (some 0) mods
        exact ⟨h1, h2, .cons (.inl rfl) h3⟩
      | some k =>
        obtain ⟨h1, h2, h3⟩ := ih (some (k + 1)) (setModule (dupName name (k + 1)) mod mods)
        refine ⟨fun t ht => ?_, fun t ht => ?_, .cons (.inr ⟨h.1, h.2, k, rfl, ?_⟩) h3⟩
        · dsimp only
          rw [h1 t ht, getModule_set, if_neg (ht k)]
        · apply h2
          rw [getModule_set]
          split_ifs
          · rfl
          · exact ht
        · apply h2
          rw [getModule_set, if_pos rfl]
    · rw [if_neg h]
      obtain ⟨h1, h2, h3⟩ := ih count mods
      exact ⟨h1, h2, .cons (.inl rfl) h3⟩

/-- The state of the pass between two modules; `rest` are the modules still to come. -/
private structure Inv (rest : Mods V) (g : List Node) (mods : Mods V) : Prop where
  nodup : (rest.map Prod.fst).Nodup
  closed : ∀ n ∈ g, n.op = .callModule → ∃ m, getModule mods n.target = some m
  here : ∀ e ∈ rest, e.2.stateful = false → getModule mods e.1 = some e.2
  fresh : ∀ e ∈ rest, e.2.stateful = false → ∀ k, getModule mods (dupName e.1 (k + 1)) = none
  noMethod : ∀ e ∈ rest, e.2.stateful = false → ∀ n ∈ g, n.target = e.1 → n.op ≠ .callMethod ∧ n.op ≠ .getAttr

private theorem Inv.tail {e : String × Mod V} {rest : Mods V} {g : List Node} {mods : Mods V} (h : Inv (e :: rest) g mods) :
    Inv rest g mods :=
  ⟨(List.nodup_cons.mp h.nodup).2, h.closed, fun e' he => h.here e' (by simp [he]), fun e' he => h.fresh e' (by simp [he]),
    fun e' he => h.noMethod e' (by simp [he])⟩

private theorem step_inv {e : String × Mod V} {rest : Mods V} {g : List Node} {mods : Mods V} (h : Inv (e :: rest) g mods)
    (hs : e.2.stateful = false) :
    Inv rest (dupPass e.1 e.2 g none mods).1 (dupPass e.1 e.2 g none mods).2 ∧
      ∀ (S : Sem V) env, exec S (dupPass e.1 e.2 g none mods).2 (dupPass e.1 e.2 g none mods).1 env = exec S mods g env := by
  obtain ⟨p1, p2, p3⟩ := dupPass_spec e.1 e.2 g none mods
  generalize hr : dupPass e.1 e.2 g none mods = r at p1 p2 p3 ⊢
  obtain ⟨g', mods'⟩ := r
  dsimp only at p1 p2 p3 ⊢
  have hhere := h.here e (by simp) hs
  have hfresh := h.fresh e (by simp) hs
  have hmeth := h.noMethod e (by simp) hs
  -- names of modules still to come are not names of copies
  have hne : ∀ t m, getModule mods t = some m → ∀ k, t ≠ dupName e.1 (k + 1) := by
    intro t m ht k hk
    rw [hk, hfresh k] at ht
    cases ht
  have hname : e.1 ∉ rest.map Prod.fst := (List.nodup_cons.mp h.nodup).1
  have hback : ∀ n' ∈ g', ∃ n ∈ g, Step e.1 e.2 mods' n n' := by
    clear hr
    induction p3 with
    | nil => simp
    | cons ha _ ih =>
      intro n' hn'
      rcases List.mem_cons.mp hn' with rfl | hn'
      · exact ⟨_, by simp, ha⟩
      · obtain ⟨n, h1, h2⟩ := ih (by
          exact ⟨h.nodup, fun n hn => h.closed n (by simp [hn]), h.here, h.fresh, fun e he hs n hn => h.noMethod e he hs n (by simp [hn])⟩)
          (fun n hn => hmeth n (by simp [hn])) n' hn'
        exact ⟨n, by simp [h1], h2⟩
  refine ⟨⟨(List.nodup_cons.mp h.nodup).2, ?_, ?_, ?_, ?_⟩, ?_⟩
  · intro n' hn' hop
    obtain ⟨n, hn, hst⟩ := hback n' hn'
    rcases hst with rfl | ⟨_, _, k, rfl, hk⟩
    · obtain ⟨m, hm⟩ := h.closed n' hn hop
      exact ⟨m, by rw [p1 _ (hne _ _ hm), hm]⟩
    · exact ⟨_, hk⟩
  · intro e' he' hs'
    have := h.here e' (by simp [he']) hs'
    rw [p1 _ (hne _ _ this), this]
  · intro e' he' hs' k
    rw [p1, h.fresh e' (by simp [he']) hs']
    intro k' hk'
    have := (dupName_inj hk').1
    exact hname (this ▸ List.mem_map_of_mem he')
  · intro e' he' hs' n' hn' ht
    obtain ⟨n, hn, hst⟩ := hback n' hn'
    rcases hst with rfl | ⟨_, _, k, rfl, hk⟩
    · exact h.noMethod e' (by simp [he']) hs' n' hn ht
    · exact absurd ht.symm (hne _ _ (h.here e' (by simp [he']) hs') k)
  · intro S
    have key : ∀ n n', n ∈ g → Step e.1 e.2 mods' n n' →
        n'.name = n.name ∧ n'.args = n.args ∧ ∀ as, evalNode S mods' n' as = evalNode S mods n as := by
      intro n n' hn hst
      rcases hst with rfl | ⟨hstr, htar, k, rfl, hk⟩
      · refine ⟨rfl, rfl, fun as => ?_⟩
        unfold evalNode
        cases hop : n'.op <;> try rfl
        obtain ⟨m, hm⟩ := h.closed n' hn hop
        dsimp only
        rw [p1 _ (hne _ _ hm)]
      · refine ⟨rfl, rfl, fun as => ?_⟩
        unfold evalNode
        dsimp only
        have hm := hmeth n hn htar
        cases hop : n.op with
        | placeholder => rfl
        | getAttr => exact absurd hop hm.2
        | callFunction f => rfl
        | callMethod => exact absurd hop hm.1
        | callModule =>
          dsimp only
          rw [hk, htar, hhere]
        | output => rfl
    clear hr hback
    have gen : ∀ (l l' : List Node), List.Forall₂ (Step e.1 e.2 mods') l l' → (∀ n ∈ l, n ∈ g) →
        ∀ env, exec S mods' l' env = exec S mods l env := by
      intro l l' hl
      induction hl with
      | nil => intro _ _; rfl
      | @cons n n' l l' ha _ ih =>
        intro hsub env
        obtain ⟨k1, k2, k3⟩ := key n n' (hsub n (by simp)) ha
        simp only [exec, k1, k2, k3]
        congr 1
        funext v
        exact ih (fun m hm => hsub m (by simp [hm])) _
    exact gen g g' p3 (fun _ h => h)

/-- The graph and its modules are as tracing leaves them: module names are distinct and every called module is registered. -/
structure Traced (g : List Node) (mods : Mods V) : Prop where
  nodup : (mods.map Prod.fst).Nodup
  closed : ∀ n ∈ g, n.op = .callModule → ∃ m, getModule mods n.target = some m

/-- No module has the name that a copy of a stateless module would get, and no method or attribute that the graph uses has the name of
a stateless module. -/
structure NoClash (g : List Node) (mods : Mods V) : Prop where
  fresh : ∀ e ∈ mods, e.2.stateful = false → ∀ k, getModule mods (dupName e.1 (k + 1)) = none
  noMethod : ∀ e ∈ mods, e.2.stateful = false → ∀ n ∈ g, n.target = e.1 → n.op ≠ .callMethod ∧ n.op ≠ .getAttr

theorem getModule_of_mem {mods : Mods V} (hn : (mods.map Prod.fst).Nodup) {e : String × Mod V} (he : e ∈ mods) :
    getModule mods e.1 = some e.2 := by
  induction mods with
  | nil => simp at he
  | cons a r ih =>
    rw [List.map_cons, List.nodup_cons] at hn
    rcases List.mem_cons.mp he with rfl | he
    · simp [getModule]
    · have hne : a.1 ≠ e.1 := by
        intro h; exact hn.1 (h ▸ List.mem_map_of_mem he)
      have := ih hn.2 he
      simpa [getModule, hne] using this

private theorem fold_exec (rest : Mods V) (g : List Node) (mods : Mods V) (h : Inv rest g mods) (S : Sem V) (env : ℕ → V) :
    let r := rest.foldl (fun st e => if e.2.stateful then st else dupPass e.1 e.2 st.1 none st.2) (g, mods)
    exec S r.2 r.1 env = exec S mods g env := by
  induction rest generalizing g mods with
  | nil => rfl
  | cons e rest ih =>
    rw [List.foldl_cons]
    cases hs : e.2.stateful with
    | true =>
      simp only [if_true]
      exact ih g mods h.tail
    | false =>
      simp only [Bool.false_eq_true, if_false]
      obtain ⟨h1, h2⟩ := step_inv h hs
      have := ih _ _ h1
      dsimp only at this ⊢
      rw [this, h2]

/-- C86: every run of the graph after the pass, on every input and for every meaning of functions and methods, gives every node the
value it had before, and raises exactly when it did. Without `NoClash` it is
false: `C86_clash_swaps`, `C86_method_renamed`. -/
theorem C86_duplicate (g : List Node) (mods : Mods V) (ht : Traced g mods) (hc : NoClash g mods) (S : Sem V) (env : ℕ → V) :
    exec S (duplicateShared g mods).2 (duplicateShared g mods).1 env = exec S mods g env :=
  fold_exec mods g mods ⟨ht.nodup, ht.closed, fun _ he _ => getModule_of_mem ht.nodup he, hc.fresh, hc.noMethod⟩ S env

/-! ### Every copy is called once -/

/-- The number of calls of the module registered under a name. -/
def calls (g : List Node) (t : String) : ℕ := (g.filter fun n => n.op = .callModule ∧ n.target = t).length

private theorem calls_cons (n : Node) (g : List Node) (t : String) :
    calls (n :: g) t = (if n.op = .callModule ∧ n.target = t then 1 else 0) + calls g t := by
  unfold calls
  rw [List.filter_cons]
  by_cases h : n.op = .callModule ∧ n.target = t
  · rw [if_pos h, if_pos (by simpa using h), List.length_cons]; omega
  · rw [if_neg h, if_neg (by simpa using h)]; omega

private theorem dupPass_calls (name : String) (mod : Mod V) (g : List Node) (count : Option ℕ) (mods : Mods V) :
    (∀ t, t ≠ name → (∀ k, t ≠ dupName name (k + 1)) → calls (dupPass name mod g count mods).1 t = calls g t) ∧
    (calls (dupPass name mod g count mods).1 name ≤ if count = none then 1 else 0) ∧
    (∀ k, calls (dupPass name mod g count mods).1 (dupName name (k + 1)) ≤
      (if count.any (fun c => decide (c ≤ k)) || count.isNone then 1 else 0) + calls g (dupName name (k + 1))) := by
  induction g generalizing count mods with
  | nil => refine ⟨fun _ _ _ => rfl, by simp [dupPass, calls], fun k => by simp [dupPass, calls]⟩
  | cons n g ih =>
    unfold dupPass
    by_cases h : n.strTarget = true ∧ n.target = name
    · rw [if_pos h]
      cases count with
      | none =>
        obtain ⟨h1, h2, h3⟩ := ih (some 0) mods
        refine ⟨fun t ht hk => ?_, ?_, fun k => ?_⟩
        · simp only [calls_cons]; rw [h1 t ht hk]
        · simp only [calls_cons]
          simp only [reduceCtorEq, if_false] at h2
          simp only [if_true]
          split_ifs <;> omega
        · simp only [calls_cons]
          have := h3 k
          simp at this ⊢
          omega
      | some c =>
        obtain ⟨h1, h2, h3⟩ := ih (some (c + 1)) (setModule (dupName name (c + 1)) mod mods)
        refine ⟨fun t ht hk => ?_, ?_, fun k => ?_⟩
        · simp only [calls_cons]
          rw [h1 t ht hk, if_neg (fun h' => hk c h'.2.symm), if_neg (fun h' => ht (by rw [← h'.2, h.2]))]
        · simp only [calls_cons]
          simp only [reduceCtorEq, if_false] at h2 ⊢
          rw [if_neg (fun h' => dupName_ne_self name (c + 1) h'.2)]
          omega
        · simp only [calls_cons]
          have h3' := h3 k
          have hn : ¬(n.op = .callModule ∧ n.target = dupName name (k + 1)) := by
            rintro ⟨_, h'⟩
            exact dupName_ne_self name (k + 1) (by rw [← h', h.2])
          rw [if_neg hn]
          by_cases hck : c = k
          · subst hck
            simp at h3' ⊢
            rw [if_neg (by omega)] at h3'
            split_ifs <;> omega
          · rw [if_neg (fun h' => hck (by have := (dupName_inj h'.2).2; omega))]
            simp only [Option.any_some, Option.isNone_some, Bool.or_false, decide_eq_true_eq] at h3' ⊢
            have e : (c + 1 ≤ k) = (c ≤ k) := by apply propext; omega
            simp only [e] at h3'
            omega
    · rw [if_neg h]
      obtain ⟨h1, h2, h3⟩ := ih count mods
      refine ⟨fun t ht hk => ?_, ?_, fun k => ?_⟩
      · simp only [calls_cons]; rw [h1 t ht hk]
      · simp only [calls_cons]
        rw [if_neg]
        · omega
        · rintro ⟨h', h''⟩
          exact h ⟨by simp [Node.strTarget, h'], h''⟩
      · simp only [calls_cons]
        have := h3 k
        omega

/-- Between two modules: `done` are the stateless modules already treated. -/
private structure Once (all done : Mods V) (g : List Node) (mods : Mods V) : Prop where
  once : ∀ e ∈ done, calls g e.1 ≤ 1 ∧ ∀ k, calls g (dupName e.1 (k + 1)) ≤ 1
  zero : ∀ e ∈ all, e ∉ done → e.2.stateful = false → ∀ k, calls g (dupName e.1 (k + 1)) = 0
  reg : ∀ t m, getModule mods t = some m → m.stateful = false →
    (∃ e ∈ all, e.1 = t ∧ e.2.stateful = false) ∨ ∃ e ∈ done, ∃ k, t = dupName e.1 (k + 1)

private theorem dupPass_reg (name : String) (mod : Mod V) (g : List Node) (count : Option ℕ) (mods : Mods V) (t : String) (m : Mod V)
    (h : getModule (dupPass name mod g count mods).2 t = some m) :
    getModule mods t = some m ∨ ∃ k, t = dupName name (k + 1) := by
  by_cases hk : ∃ k, t = dupName name (k + 1)
  · exact .inr hk
  · left
    rw [← (dupPass_spec name mod g count mods).1 t (fun k hk' => hk ⟨k, hk'⟩)]
    exact h

private theorem fold_once (all : Mods V) (hnd : (all.map Prod.fst).Nodup)
    (hfresh : ∀ e ∈ all, e.2.stateful = false → ∀ k, ∀ e' ∈ all, e'.1 ≠ dupName e.1 (k + 1)) (done rest : Mods V)
    (hall : ∀ e, e ∈ all → e.2.stateful = false → e ∈ done ∨ e ∈ rest) (hrest : ∀ e ∈ rest, e ∈ all) (hdone : ∀ e ∈ done, e ∈ all ∧ e.2.stateful = false)
    (hdis : ∀ e ∈ rest, e ∉ done) (hrn : rest.Nodup) (g : List Node) (mods : Mods V) (h : Once all done g mods) :
    let r := rest.foldl (fun st e => if e.2.stateful then st else dupPass e.1 e.2 st.1 none st.2) (g, mods)
    ∀ t m, getModule r.2 t = some m → m.stateful = false → calls r.1 t ≤ 1 := by
  induction rest generalizing done g mods with
  | nil =>
    intro r t m ht hm
    rcases h.reg t m ht hm with ⟨e, he, rfl, hs⟩ | ⟨e, he, k, rfl⟩
    · rcases hall e he hs with h' | h'
      · exact (h.once e h').1
      · simp at h'
    · exact (h.once e he).2 k
  | cons e rest ih =>
    rw [List.foldl_cons]
    have hinj : ∀ a ∈ all, ∀ b ∈ all, a.1 = b.1 → a = b := by
      intro a ha b hb hab
      have h1 := getModule_of_mem hnd ha
      have h2 := getModule_of_mem hnd hb
      rw [hab, h2] at h1
      exact Prod.ext hab (Option.some.inj h1).symm
    rw [List.nodup_cons] at hrn
    cases hs : e.2.stateful with
    | true =>
      simp only [if_true]
      refine ih done ?_ (fun a ha => hrest a (by simp [ha])) hdone (fun a ha => hdis a (by simp [ha])) hrn.2 g mods h
      intro a ha has
      rcases hall a ha has with h' | h'
      · exact .inl h'
      · rcases List.mem_cons.mp h' with rfl | h'
        · rw [hs] at has; cases has
        · exact .inr h'
    | false =>
      simp only [Bool.false_eq_true, if_false]
      have hea := hrest e (by simp)
      refine ih (e :: done) ?_ (fun a ha => hrest a (by simp [ha])) ?_ ?_ hrn.2 _ _ ?_
      · intro a ha has
        rcases hall a ha has with h' | h'
        · exact .inl (by simp [h'])
        · rcases List.mem_cons.mp h' with rfl | h'
          · exact .inl (by simp)
          · exact .inr h'
      · intro a ha
        rcases List.mem_cons.mp ha with rfl | ha
        · exact ⟨hea, hs⟩
        · exact hdone a ha
      · intro a ha h'
        rcases List.mem_cons.mp h' with rfl | h'
        · exact hrn.1 ha
        · exact hdis a (by simp [ha]) h'
      · obtain ⟨c1, c2, c3⟩ := dupPass_calls e.1 e.2 g none mods
        have hz := h.zero e hea (hdis e (by simp)) hs
        refine ⟨?_, ?_, ?_⟩
        · intro a ha
          rcases List.mem_cons.mp ha with rfl | had
          · refine ⟨by simpa using c2, fun k => ?_⟩
            have := c3 k
            rw [hz k] at this
            simpa using this
          · have hne : a.1 ≠ e.1 := by
              intro h'
              have := hinj a (hdone a had).1 e hea h'
              subst this
              exact hdis a (by simp) had
            rw [c1 a.1 hne (fun k => hfresh e hea hs k a (hdone a had).1)]
            refine ⟨(h.once a had).1, fun k => ?_⟩
            rw [c1 _ (fun h' => hfresh a (hdone a had).1 (hdone a had).2 k e hea h'.symm) (fun k' h' => hne (dupName_inj h').1)]
            exact (h.once a had).2 k
        · intro a ha hnd' has k
          have hne : a.1 ≠ e.1 := by
            intro h'
            have := hinj a ha e hea h'
            subst this
            simp at hnd'
          rw [c1 _ (fun h' => hfresh a ha has k e hea h'.symm) (fun k' h' => hne (dupName_inj h').1)]
          exact h.zero a ha (fun h' => hnd' (by simp [h'])) has k
        · intro t m ht hm
          rcases dupPass_reg e.1 e.2 g none mods t m ht with h' | ⟨k, hk⟩
          · rcases h.reg t m h' hm with h'' | ⟨a, ha, k, hk⟩
            · exact .inl h''
            · exact .inr ⟨a, by simp [ha], k, hk⟩
          · exact .inr ⟨e, by simp, k, hk⟩

/-- C86: afterwards every module without state is called at most once. -/
theorem C86_called_once (g : List Node) (mods : Mods V) (ht : Traced g mods) (hc : NoClash g mods) :
    ∀ t m, getModule (duplicateShared g mods).2 t = some m → m.stateful = false → calls (duplicateShared g mods).1 t ≤ 1 := by
  have hmem : ∀ e ∈ mods, getModule mods e.1 = some e.2 := fun e he => getModule_of_mem ht.nodup he
  refine fold_once mods ht.nodup ?_ [] mods (fun e he _ => .inr he) (fun e he => he) (by simp) (by simp) (List.Nodup.of_map _ ht.nodup) g mods
    ⟨by simp, ?_, ?_⟩
  · intro e he hs k e' he' h'
    have := hmem e' he'
    rw [h', hc.fresh e he hs k] at this
    cases this
  · intro e he _ hs k
    unfold calls
    rw [List.length_eq_zero_iff, List.filter_eq_nil_iff]
    intro n hn h'
    simp only [decide_eq_true_eq] at h'
    obtain ⟨m, hm⟩ := ht.closed n hn h'.1
    rw [h'.2, hc.fresh e he hs k] at hm
    cases hm
  · intro t m hm hs
    left
    unfold getModule at hm
    rw [Option.map_eq_some_iff] at hm
    obtain ⟨e, he, rfl⟩ := hm
    exact ⟨e, List.mem_of_find?_eq_some he, by simpa using List.find?_some he, hs⟩

/-! ### Concrete graphs -/

/-- A module of one tensor. -/
def unary (stateful : Bool) (f : ℤ → ℤ) : Mod ℤ :=
  ⟨stateful, fun as =>
    match as with
    | [.ref v] => some (f v)
    | _ => none⟩

/-- Integers, with the method `flatten` only. -/
def intSem (x : ℤ) : Sem ℤ where
  input _ := some x
  attr _ := none
  fn _ _ := none
  method m as :=
    if m = "flatten" then
      match as with
      | [.ref v] => some v
      | _ => none
    else none
  output _ := some 0

/-- `x`, then a call per target, each of the result of the previous one. -/
def chain (k : ℕ) : List (Op × String) → List Node
  | [] => [⟨k, .output, "output", [.ref (k - 1)]⟩]
  | (op, t) :: r => ⟨k, op, t, [.ref (k - 1)]⟩ :: chain (k + 1) r

/-- The value of node `k` of a graph on input `x`. -/
def valueAt (k : ℕ) (x : ℤ) (g : List Node) (mods : Mods ℤ) : Option ℤ := (exec (intSem x) mods g fun _ => 0).map fun env => env k

/-- A rectified linear unit called twice around a layer with weights. -/
def exampleMods : Mods ℤ := [("act", unary false fun v => max v 0), ("conv", unary true fun v => 3 - v)]

/-- See `exampleMods`. -/
def exampleGraph : List Node :=
  ⟨0, .placeholder, "x", []⟩ :: chain 1 [(.callModule, "act"), (.callModule, "conv"), (.callModule, "act")]

example : Traced exampleGraph exampleMods := by
  refine ⟨by decide, ?_⟩
  intro n hn hop
  simp only [exampleGraph, chain, List.mem_cons, List.not_mem_nil, or_false] at hn
  rcases hn with rfl | rfl | rfl | rfl | rfl
  · cases hop
  · exact ⟨_, rfl⟩
  · exact ⟨_, rfl⟩
  · exact ⟨_, rfl⟩
  · cases hop

example : NoClash exampleGraph exampleMods := by
  constructor
  · intro e he hs k
    simp only [exampleMods, List.mem_cons, List.not_mem_nil, or_false] at he
    rcases he with rfl | rfl
    · have h1 := (dupName_ne_self "act" (k + 1)).symm
      have h2 : "conv" ≠ dupName "act" (k + 1) := by
        intro h
        have := congrArg String.toList h
        rw [dupName_toList] at this
        simp at this
      simp [getModule, exampleMods, h1, h2]
    · cases hs
  · intro e he hs n hn ht
    simp only [exampleGraph, chain, List.mem_cons, List.not_mem_nil, or_false] at hn
    rcases hn with rfl | rfl | rfl | rfl | rfl <;> exact ⟨by decide, by decide⟩

example : (duplicateShared exampleGraph exampleMods).1.map Node.target = ["x", "act", "conv", "act_1", "output"] ∧
    valueAt 3 5 (duplicateShared exampleGraph exampleMods).1 (duplicateShared exampleGraph exampleMods).2 = some 0 ∧
    valueAt 3 (-1) exampleGraph exampleMods = some 3 := by decide +kernel

/-- C86: a module that happens to have the name of a copy is overwritten by it, and the calls are exchanged: with `act` called twice after
`act_1`, the graph computes something else afterwards. -/
theorem C86_clash_swaps :
    let mods : Mods ℤ := [("act", unary false fun v => max v 0), ("act_1", unary false fun v => -v)]
    let g : List Node := ⟨0, .placeholder, "x", []⟩ :: chain 1 [(.callModule, "act_1"), (.callModule, "act"), (.callModule, "act")]
    valueAt 3 1 g mods = some 0 ∧ valueAt 3 1 (duplicateShared g mods).1 (duplicateShared g mods).2 = some (-1) := by
  decide +kernel

/-- C86: a module with weights that has the name of a copy is lost, and the copy called in its place. -/
theorem C86_clash_overwrites_weights :
    let mods : Mods ℤ := [("act", unary false fun v => max v 0), ("act_1", unary true fun v => 3 - v)]
    let g : List Node := ⟨0, .placeholder, "x", []⟩ :: chain 1 [(.callModule, "act"), (.callModule, "act"), (.callModule, "act_1")]
    valueAt 3 1 g mods = some 2 ∧ valueAt 3 1 (duplicateShared g mods).1 (duplicateShared g mods).2 = some 1 ∧
    (duplicateShared g mods).2.all (fun e => !e.2.stateful) = true := by
  decide +kernel

/-- C86: a call of a method that has the name of a stateless module is renamed as if it were a call of the module, and the graph
raises afterwards. -/
theorem C86_method_renamed :
    let mods : Mods ℤ := [("flatten", unary false fun v => v)]
    let g : List Node := ⟨0, .placeholder, "x", []⟩ :: chain 1 [(.callModule, "flatten"), (.callMethod, "flatten")]
    valueAt 2 1 g mods = some 1 ∧ (duplicateShared g mods).1.map Node.target = ["x", "flatten", "flatten_1", "output"] ∧
    valueAt 2 1 (duplicateShared g mods).1 (duplicateShared g mods).2 = none := by
  decide +kernel

end Brevitas.Standardize
