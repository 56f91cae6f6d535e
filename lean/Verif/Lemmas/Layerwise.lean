import Verif.Model.Layerwise
import Mathlib.Data.List.Nodup
import Mathlib.Data.List.Induction

/-! # Facts about module trees -/

namespace Brevitas.Modules

theorem resolve_append (h : Heap) (i : ℕ) (p q : List String) : resolve h i (p ++ q) = (resolve h i p).bind fun j => resolve h j q := by
  induction p generalizing i with
  | nil => rfl
  | cons a p ih =>
    rw [List.cons_append, resolve, resolve]
    cases child (h i) a with
    | none => rfl
    | some j => exact ih j

theorem resolve_snoc (h : Heap) (i : ℕ) (p : List String) (a : String) : resolve h i (p ++ [a]) = (resolve h i p).bind fun j => child (h j) a := by
  rw [resolve_append]
  congr 1
  funext j
  simp [resolve]

/-- The keys of the dictionaries of children differ. -/
def DictKeys (h : Heap) : Prop := ∀ i, ((h i).children.map Prod.fst).Nodup

theorem child_mem {m : Mod} {a : String} {j : ℕ} (hj : child m a = some j) : (a, j) ∈ m.children := by
  unfold child at hj
  rw [Option.map_eq_some_iff] at hj
  obtain ⟨e, h1, rfl⟩ := hj
  have h2 := List.find?_some h1
  have h3 := List.mem_of_find?_eq_some h1
  have : e.1 = a := by simpa using h2
  subst this
  exact h3

theorem mem_child {m : Mod} (hm : (m.children.map Prod.fst).Nodup) {a : String} {j : ℕ} (hj : (a, j) ∈ m.children) : child m a = some j := by
  unfold child
  generalize m.children = l at hm hj
  induction l with
  | nil => simp at hj
  | cons e l ih =>
    rw [List.map_cons, List.nodup_cons] at hm
    rw [List.find?_cons]
    rcases List.mem_cons.mp hj with rfl | hj
    · simp
    · have : e.1 ≠ a := by
        rintro rfl
        exact hm.1 (List.mem_map.mpr ⟨_, hj, rfl⟩)
      rw [show (e.1 == a) = false by simpa using this]
      exact ih hm.2 hj

theorem mem_namedModules {h : Heap} (hk : DictKeys h) (fuel i : ℕ) (p : List String) (j : ℕ) :
    (p, j) ∈ namedModules h fuel i ↔ p.length < fuel ∧ resolve h i p = some j := by
  induction fuel generalizing i p with
  | zero => simp [namedModules]
  | succ fuel ih =>
    rw [namedModules, List.mem_cons]
    cases p with
    | nil =>
      simp only [resolve, List.length_nil, Option.some.injEq, Nat.succ_pos, true_and, List.mem_flatMap, List.mem_map]
      constructor
      · rintro (h1 | ⟨c, _, e, _, h1⟩)
        · exact (Prod.mk.inj h1).2.symm
        · exact absurd (Prod.mk.inj h1).1 (by simp)
      · rintro rfl
        exact Or.inl rfl
    | cons a p =>
      simp only [List.mem_flatMap, List.mem_map, List.length_cons, Nat.add_lt_add_iff_right, resolve]
      constructor
      · rintro (h1 | ⟨c, hc, e, he, h1⟩)
        · exact absurd (Prod.mk.inj h1).1 (by simp)
        · obtain ⟨h2, h3⟩ := Prod.mk.inj h1
          obtain ⟨h4, h5⟩ := List.cons.inj h2
          subst h4 h5 h3
          obtain ⟨h6, h7⟩ := (ih c.2 e.1).mp he
          refine ⟨h6, ?_⟩
          rw [mem_child (hk i) hc]
          exact h7
      · rintro ⟨h1, h2⟩
        rw [Option.bind_eq_some_iff] at h2
        obtain ⟨k, h3, h4⟩ := h2
        exact Or.inr ⟨(a, k), child_mem h3, (p, j), (ih k p).mpr ⟨h1, h4⟩, rfl⟩

theorem child_setChild_same (m : Mod) (a : String) (j : ℕ) : child { m with children := setChild a j m.children } a = some j := by
  unfold child
  dsimp only
  generalize m.children = l
  induction l with
  | nil => simp [setChild]
  | cons e l ih =>
    unfold setChild
    by_cases he : e.1 = a
    · rw [if_pos he]; simp
    · rw [if_neg he, List.find?_cons]
      rw [show (e.1 == a) = false by simpa using he]
      exact ih

theorem child_setChild_other (m : Mod) (a b : String) (j : ℕ) (hb : b ≠ a) :
    child { m with children := setChild a j m.children } b = child m b := by
  unfold child
  dsimp only
  generalize m.children = l
  induction l with
  | nil => simp [setChild, Ne.symm hb]
  | cons e l ih =>
    unfold setChild
    by_cases he : e.1 = a
    · rw [if_pos he, List.find?_cons, List.find?_cons]
      dsimp only
      rw [he, show (a == b) = false by simpa using Ne.symm hb]
    · rw [if_neg he, List.find?_cons, List.find?_cons]
      cases e.1 == b with
      | true => rfl
      | false => exact ih

theorem setChild_keys (a : String) (j : ℕ) (l : List (String × ℕ)) (h : a ∈ l.map Prod.fst) : (setChild a j l).map Prod.fst = l.map Prod.fst := by
  induction l with
  | nil => simp at h
  | cons e l ih =>
    unfold setChild
    by_cases he : e.1 = a
    · rw [if_pos he]; simp [he]
    · rw [if_neg he, List.map_cons, List.map_cons, ih]
      rcases List.mem_cons.mp h with h | h
      · exact absurd h.symm he
      · exact h

theorem namedChildren_sub (seen : List ℕ) (l : List (String × ℕ)) : ∀ e ∈ namedChildren seen l, e ∈ l := by
  induction l generalizing seen with
  | nil => simp [namedChildren]
  | cons x l ih =>
    intro e he
    unfold namedChildren at he
    split_ifs at he with h
    · exact List.mem_cons_of_mem _ (ih _ e he)
    · rcases List.mem_cons.mp he with rfl | he
      · simp
      · exact List.mem_cons_of_mem _ (ih _ e he)

theorem mem_namedChildren (l : List (String × ℕ)) (seen : List ℕ) (hl : (l.map Prod.snd).Nodup) (hs : ∀ e ∈ l, e.2 ∉ seen) :
    namedChildren seen l = l := by
  induction l generalizing seen with
  | nil => rfl
  | cons x l ih =>
    rw [List.map_cons, List.nodup_cons] at hl
    unfold namedChildren
    rw [if_neg (hs x (by simp)), ih _ hl.2]
    intro e he
    rw [List.mem_cons, not_or]
    exact ⟨fun h => hl.1 (h ▸ List.mem_map.mpr ⟨e, he, rfl⟩), hs e (by simp [he])⟩

/-- No module is registered under two names. -/
def NoAlias (h : Heap) (root : ℕ) : Prop := ∀ p q i, resolve h root p = some i → resolve h root q = some i → p = q

theorem children_nodup {h : Heap} {root : ℕ} (hk : DictKeys h) (hn : NoAlias h root) {p : List String} {i : ℕ} (hp : resolve h root p = some i) :
    ((h i).children.map Prod.snd).Nodup := by
  have key : ∀ e ∈ (h i).children, resolve h root (p ++ [e.1]) = some e.2 := by
    intro e he
    rw [resolve_snoc, hp]
    exact mem_child (hk i) he
  have : ∀ l : List (String × ℕ), (∀ e ∈ l, e ∈ (h i).children) → (l.map Prod.fst).Nodup → (l.map Prod.snd).Nodup := by
    intro l
    induction l with
    | nil => simp
    | cons x l ih =>
      intro h1 h2
      rw [List.map_cons, List.nodup_cons] at h2 ⊢
      refine ⟨?_, ih (fun e he => h1 e (by simp [he])) h2.2⟩
      intro hx
      obtain ⟨e, he, hex⟩ := List.mem_map.mp hx
      have h3 := key x (h1 x (by simp))
      have h4 := key e (h1 e (by simp [he]))
      rw [hex] at h4
      have := hn _ _ _ h3 h4
      rw [List.append_cancel_left_eq] at this
      have h5 : x.1 = e.1 := by simpa using this
      exact h2.1 (h5 ▸ List.mem_map.mpr ⟨e, he, rfl⟩)
  exact this _ (fun _ h => h) (hk i)

/-- What `find_module` returns below a module that it reached. -/
theorem findModule_mem {h : Heap} {root : ℕ} (hk : DictKeys h) (hn : NoAlias h root) (layerMap : String → Option (Option String))
    (blacklist : List (List String)) (fuel : ℕ) (pre : List String) (i0 : ℕ) (h0 : resolve h root pre = some i0) (i : ℕ) :
    i ∈ findModule h layerMap blacklist fuel pre i0 ↔
      ∃ t, t.length < fuel ∧ resolve h i0 t = some i ∧ (layerMap (h i).cls).isSome ∧
        (∀ q, q <+: t → q ≠ t → ∀ j, resolve h i0 q = some j → layerMap (h j).cls = none) ∧
        ∀ q, q <+: t → q ≠ [] → pre ++ q ∉ blacklist := by
  induction fuel generalizing pre i0 with
  | zero => simp [findModule]
  | succ fuel ih =>
    unfold findModule
    by_cases hm : (layerMap (h i0).cls).isSome
    · rw [if_pos hm, List.mem_singleton]
      constructor
      · rintro rfl
        refine ⟨[], by simp, rfl, hm, ?_, ?_⟩
        · intro q hq hq'; exact absurd (List.prefix_nil.mp hq) hq'
        · intro q hq hq'; exact absurd (List.prefix_nil.mp hq) hq'
      · rintro ⟨t, -, h1, -, h2, -⟩
        cases t with
        | nil => exact (Option.some.inj h1).symm
        | cons a t =>
          have := h2 [] (List.nil_prefix) (by simp) i0 rfl
          rw [this] at hm
          simp at hm
    · rw [if_neg hm, mem_namedChildren _ _ (children_nodup hk hn h0) (by simp), List.mem_flatMap]
      have hnone : layerMap (h i0).cls = none := by simpa using hm
      constructor
      · rintro ⟨c, hc, hi⟩
        have hchild := mem_child (hk i0) hc
        have hres : resolve h root (pre ++ [c.1]) = some c.2 := by rw [resolve_snoc, h0]; exact hchild
        split_ifs at hi with hb
        · simp at hi
        obtain ⟨t, h1, h2, h3, h4, h5⟩ := (ih _ _ hres).mp hi
        refine ⟨c.1 :: t, by simpa using h1, by rw [resolve, hchild]; exact h2, h3, ?_, ?_⟩
        · intro q hq hq' j hj
          cases q with
          | nil => obtain rfl := Option.some.inj hj; exact hnone
          | cons b q =>
            obtain ⟨rfl, hq2⟩ := List.cons_prefix_cons.mp hq
            rw [resolve, hchild] at hj
            exact h4 q hq2 (by rintro rfl; exact hq' rfl) j hj
        · intro q hq hq'
          cases q with
          | nil => exact absurd rfl hq'
          | cons b q =>
            obtain ⟨rfl, hq2⟩ := List.cons_prefix_cons.mp hq
            by_cases hqn : q = []
            · subst hqn; exact hb
            · have := h5 q hq2 hqn
              simpa using this
      · rintro ⟨t, h1, h2, h3, h4, h5⟩
        cases t with
        | nil =>
          obtain rfl := Option.some.inj h2
          rw [hnone] at h3
          simp at h3
        | cons a t =>
          rw [resolve, Option.bind_eq_some_iff] at h2
          obtain ⟨k, h6, h7⟩ := h2
          refine ⟨(a, k), child_mem h6, ?_⟩
          rw [if_neg (h5 [a] (by simp) (by simp))]
          have hres : resolve h root (pre ++ [a]) = some k := by rw [resolve_snoc, h0]; exact h6
          refine (ih _ _ hres).mpr ⟨t, by simpa using h1, h7, h3, ?_, ?_⟩
          · intro q hq hq' j hj
            exact h4 (a :: q) (List.cons_prefix_cons.mpr ⟨rfl, hq⟩) (by simpa using hq') j (by rw [resolve, h6]; exact hj)
          · intro q hq hq'
            have := h5 (a :: q) (List.cons_prefix_cons.mpr ⟨rfl, hq⟩) (by simp)
            simpa using this

/-! ### The rewriters -/

/-- What holds after some replacements `done` (name, module, class). -/
structure RewriteInv (h : Heap) (root next : ℕ) (done : List (List String × ℕ × String)) (s : Heap × ℕ) : Prop where
  keep : ∀ p, (∀ d ∈ done, ¬ d.1 <+: p) → resolve s.1 root p = resolve h root p
  made : ∀ d ∈ done, ∃ j, next ≤ j ∧ j < s.2 ∧ resolve s.1 root d.1 = some j ∧ s.1 j = ⟨d.2.2, [], some d.2.1⟩
  same : ∀ i < next, (s.1 i).cls = (h i).cls ∧ (s.1 i).origin = (h i).origin
  keys : DictKeys s.1
  le : next ≤ s.2

theorem inv_cases {h : Heap} {root next : ℕ} {done : List (List String × ℕ × String)} {s : Heap × ℕ} (I : RewriteInv h root next done s)
    {q : List String} {i : ℕ} (hq : resolve s.1 root q = some i) :
    ((∀ d ∈ done, ¬ d.1 <+: q) ∧ resolve h root q = some i) ∨ (next ≤ i ∧ i < s.2 ∧ ∃ d ∈ done, d.1 = q) := by
  by_cases hd : ∀ d ∈ done, ¬ d.1 <+: q
  · exact Or.inl ⟨hd, by rw [← I.keep q hd]; exact hq⟩
  · push Not at hd
    obtain ⟨d, hd1, t, rfl⟩ := hd
    obtain ⟨j, h1, h2, h3, h4⟩ := I.made d hd1
    rw [resolve_append, h3, Option.bind_some] at hq
    cases t with
    | nil =>
      obtain rfl := Option.some.inj hq
      exact Or.inr ⟨h1, h2, d, hd1, by simp⟩
    | cons a t =>
      rw [resolve, h4] at hq
      simp [child] at hq

theorem replaceInstance_inv {h : Heap} {root next fuel : ℕ} (hn : NoAlias h root)
    (hfuel : ∀ p i, resolve h root p = some i → p.length < fuel) (hfresh : ∀ p i, resolve h root p = some i → i < next)
    {done : List (List String × ℕ × String)} {s : Heap × ℕ} (I : RewriteInv h root next done s) (p : List String) (i : ℕ) (c : String)
    (hp : resolve h root p = some i) (hp0 : p ≠ []) (hanti : ∀ d ∈ done, (d.1 <+: p ∨ p <+: d.1) → d = (p, i, c)) :
    ∃ done', (∀ d, d ∈ done' ↔ d ∈ done ∨ d = (p, i, c)) ∧ RewriteInv h root next done' (replaceInstance fuel root s (i, c)) := by
  by_cases hin : (p, i, c) ∈ done
  · refine ⟨done, fun d => ⟨Or.inl, fun hd => hd.elim id (by rintro rfl; exact hin)⟩, ?_⟩
    have : nameFromModule s.1 fuel root i = none := by
      unfold nameFromModule
      rw [Option.map_eq_none_iff, List.find?_eq_none]
      rintro ⟨q, j⟩ hq
      simp only [beq_iff_eq]
      rintro rfl
      obtain ⟨-, hq2⟩ := (mem_namedModules I.keys _ _ _ _).mp hq
      rcases inv_cases I hq2 with ⟨h1, h2⟩ | ⟨h1, -⟩
      · exact h1 _ hin (by rw [hn _ _ _ h2 hp])
      · exact absurd (hfresh _ _ hp) (not_lt.mpr h1)
    unfold replaceInstance
    rw [this]
    exact I
  · have hnop : ∀ d ∈ done, ¬ d.1 <+: p := fun d hd hdp => hin (hanti d hd (Or.inl hdp) ▸ hd)
    have hpn : ∀ d ∈ done, ¬ p <+: d.1 := fun d hd hdp => hin (hanti d hd (Or.inr hdp) ▸ hd)
    have hsp : resolve s.1 root p = some i := by rw [I.keep p hnop]; exact hp
    have hname : nameFromModule s.1 fuel root i = some p := by
      unfold nameFromModule
      have hmem : (p, i) ∈ namedModules s.1 fuel root := (mem_namedModules I.keys _ _ _ _).mpr ⟨hfuel _ _ hp, hsp⟩
      cases hf : (namedModules s.1 fuel root).find? fun e => e.2 == i with
      | none =>
        rw [List.find?_eq_none] at hf
        exact absurd (by simp) (hf _ hmem)
      | some e =>
        have h1 := List.find?_some hf
        have h2 := List.mem_of_find?_eq_some hf
        obtain ⟨q, j⟩ := e
        have : j = i := by simpa using h1
        subst this
        obtain ⟨-, h3⟩ := (mem_namedModules I.keys _ _ _ _).mp h2
        rcases inv_cases I h3 with ⟨-, h4⟩ | ⟨h4, -⟩
        · rw [hn _ _ _ h4 hp]; rfl
        · exact absurd (hfresh _ _ hp) (not_lt.mpr h4)
    obtain ⟨p0, a, rfl⟩ : ∃ p0 a, p = p0 ++ [a] := ⟨p.dropLast, p.getLast hp0, (List.dropLast_append_getLast hp0).symm⟩
    rw [resolve_snoc, Option.bind_eq_some_iff] at hsp
    obtain ⟨par, hpar, hchild⟩ := hsp
    have hp0n : ∀ d ∈ done, ¬ d.1 <+: p0 := fun d hd hdp => hnop d hd (hdp.trans (List.prefix_append _ _))
    have hparh : resolve h root p0 = some par := by rw [← I.keep p0 hp0n]; exact hpar
    have hparlt := hfresh _ _ hparh
    -- nothing refers to the new number before
    have hfree : ∀ q m, resolve s.1 root q = some m → m ≠ s.2 := by
      intro q m hq
      have := I.le
      rcases inv_cases I hq with ⟨-, h1⟩ | ⟨-, h1, -⟩
      · have := hfresh _ _ h1; omega
      · omega
    set hA := Function.update s.1 s.2 (⟨c, [], some i⟩ : Mod) with hhA
    have hAeq : ∀ m, m ≠ s.2 → hA m = s.1 m := fun m hm => by rw [hhA, Function.update_of_ne hm]
    have hAres : ∀ q, resolve hA root q = resolve s.1 root q := by
      intro q
      induction q using List.reverseRecOn with
      | nil => rfl
      | append_singleton q b ih =>
        rw [resolve_snoc, resolve_snoc, ih]
        cases hq : resolve s.1 root q with
        | none => rfl
        | some m => simp only [Option.bind_some]; rw [hAeq m (hfree q m hq)]
    set hB := setModule hA root s.2 (p0 ++ [a]) with hhB
    have hBdef : hB = Function.update hA par { hA par with children := setChild a s.2 (hA par).children } := by
      rw [hhB]
      unfold setModule
      rw [List.dropLast_concat, hAres, hpar]
      simp
    have hparne : par ≠ s.2 := hfree _ _ hpar
    have hBpar : hB par = { s.1 par with children := setChild a s.2 (s.1 par).children } := by
      rw [hBdef, Function.update_self, hAeq par hparne]
    have hBother : ∀ m, m ≠ par → m ≠ s.2 → hB m = s.1 m := by
      intro m h1 h2
      rw [hBdef, Function.update_of_ne h1, hAeq m h2]
    have hBnew : hB s.2 = ⟨c, [], some i⟩ := by
      rw [hBdef, Function.update_of_ne hparne.symm, hhA, Function.update_self]
    have hBres : ∀ q, ¬ (p0 ++ [a]) <+: q → resolve hB root q = resolve s.1 root q := by
      intro q
      induction q using List.reverseRecOn with
      | nil => intro _; rfl
      | append_singleton q b ih =>
        intro hq
        rw [resolve_snoc, resolve_snoc, ih fun h1 => hq (h1.trans (List.prefix_append _ _))]
        cases hqr : resolve s.1 root q with
        | none => rfl
        | some m =>
          simp only [Option.bind_some]
          by_cases hm : m = par
          · subst hm
            have hqp : q = p0 := by
              rcases inv_cases I hqr with ⟨-, h1⟩ | ⟨h1, -⟩
              · exact hn _ _ _ h1 hparh
              · exact absurd hparlt (not_lt.mpr h1)
            subst hqp
            have hba : b ≠ a := by rintro rfl; exact hq (List.prefix_refl _)
            rw [hBpar]
            exact child_setChild_other _ _ _ _ hba
          · rw [hBother m hm (hfree q m hqr)]
    have hBp : resolve hB root (p0 ++ [a]) = some s.2 := by
      rw [resolve_snoc, hBres p0 (fun h1 => by have := h1.length_le; rw [List.length_append, List.length_singleton] at this; omega), hpar, Option.bind_some, hBpar]
      exact child_setChild_same _ _ _
    refine ⟨(p0 ++ [a], i, c) :: done, fun d => by rw [List.mem_cons]; exact or_comm, ?_⟩
    have hstep : replaceInstance fuel root s (i, c) = (hB, s.2 + 1) := by
      unfold replaceInstance
      rw [hname]
    rw [hstep]
    constructor
    · intro q hq
      rw [List.forall_mem_cons] at hq
      rw [show ((hB, s.2 + 1) : Heap × ℕ).1 = hB from rfl, hBres q hq.1, I.keep q hq.2]
    · intro d hd
      have := I.le
      rcases List.mem_cons.mp hd with rfl | hd
      · exact ⟨s.2, this, by simp, hBp, hBnew⟩
      · obtain ⟨j, h1, h2, h3, h4⟩ := I.made d hd
        refine ⟨j, h1, by simp only; omega, ?_, ?_⟩
        · show resolve hB root d.1 = some j
          rw [hBres _ (hpn d hd)]
          exact h3
        · show hB j = _
          rw [hBother j (by omega) (by omega)]
          exact h4
    · intro m hm
      have := I.le
      by_cases hmp : m = par
      · subst hmp
        show (hB m).cls = _ ∧ (hB m).origin = _
        rw [hBpar]
        exact I.same m hm
      · show (hB m).cls = _ ∧ (hB m).origin = _
        rw [hBother m hmp (by omega)]
        exact I.same m hm
    · intro m
      show ((hB m).children.map Prod.fst).Nodup
      by_cases hmp : m = par
      · subst hmp
        rw [hBpar]
        dsimp only
        rw [setChild_keys _ _ _ (List.mem_map.mpr ⟨_, child_mem hchild, rfl⟩)]
        exact I.keys m
      · by_cases hms : m = s.2
        · subst hms; rw [hBnew]; simp
        · rw [hBother m hmp hms]; exact I.keys m
    · have := I.le
      show next ≤ s.2 + 1
      omega

end Brevitas.Modules
