import Verif.Model.ValueTrace

/-!
# Lemmas on value tracing

Two simulations: the graph recorded so far against the model run on some input (`Sim`), and the values of the proxies against the model run on the traced input (`Val`).
-/

namespace Brevitas

namespace ValueTrace

variable {Op Q A V σ : Type*} [DecidableEq V] {S : Sem Op Q A V σ}

/-- All calls of a program. -/
def Prog.Calls (P : Call Op V → Prop) : Prog Op Q A V → Prop
  | .ret _ _ => True
  | .call c next => P c ∧ next.Calls P
  | .getattr _ _ next => next.Calls P
  | .param _ next => next.Calls P
  | .buffer _ next => next.Calls P
  | .ask _ _ next => ∀ a, (next a).Calls P
  | .ifNone _ next => ∀ b, (next b).Calls P

/-- An augmented assignment does the same as the operator. -/
def PlainAugmented (S : Sem Op Q A V σ) (c : Call Op V) : Prop := c.kind = .augmented → ∀ vs s, S.run (S.augmented c.op) vs s = S.run c.op vs s

/-- A call that gives the same object in every state and leaves the state alone. -/
def Constant (S : Sem Op Q A V σ) (u : Op × List V) : Prop := ∃ w, ∀ s, S.run u.1 u.2 s = some (w, s)

/-- Attributes of objects do not depend on the state. -/
def StableAttributes (S : Sem Op Q A V σ) : Prop := ∀ name v s s', S.getattr name v s = S.getattr name v s'

/-- Is the result of a call traced for sure, given which objects are? -/
def Call.sure (tr : List Bool) (c : Call Op V) : Bool :=
  match c.kind with
  | .leaf _ => true
  | _ => c.args.any fun l => match l with
    | .ref i => tr[i]? == some true
    | .const _ => false

/-- Calls that can be traced: leaf modules that call no modules, `torch.cat` with `dim`, no ranges and named tuples; operators and methods of an object that is traced for sure, or operators of a constant that
is not a tensor. -/
def Call.Traceable (S : Sem Op Q A V σ) (tr : List Bool) (c : Call Op V) : Prop :=
  c.kind ≠ .leaf true ∧ c.kind ≠ .concat false ∧ .range ∉ c.containers ∧ .namedTuple ∉ c.containers ∧
    (c.kind = .operator ∨ c.kind = .augmented ∨ c.kind = .method →
      (∃ i rest, c.args = .ref i :: rest ∧ tr[i]? = some true) ∨ (c.kind ≠ .method ∧ ∃ v rest, c.args = .const v :: rest ∧ S.isTensor v = false))

/-- Code all of whose calls can be traced; `tr` are the objects that are traced for sure: results of calls with such an argument and of leaf modules, attributes of such objects, parameters. -/
def Prog.Traceable (S : Sem Op Q A V σ) : List Bool → Prog Op Q A V → Prop
  | _, .ret _ cs => .namedTuple ∉ cs
  | tr, .call c next => c.Traceable S tr ∧ next.Traceable S (tr ++ [c.sure tr])
  | tr, .getattr _ i next => next.Traceable S (tr ++ [tr[i]? == some true])
  | tr, .param name next => S.attr name ≠ S.none ∧ next.Traceable S (tr ++ [true])
  | tr, .buffer _ next => next.Traceable S (tr ++ [false])
  | tr, .ask _ _ next => ∀ a, (next a).Traceable S tr
  | tr, .ifNone _ next => ∀ b, (next b).Traceable S tr

omit [DecidableEq V] in
theorem runNodes_append (args : List (String × V)) (ns ms : List (Node Op V)) : ∀ (vals : List V) (s : σ),
    runNodes S args (ns ++ ms) vals s = (runNodes S args ns vals s).bind fun r => runNodes S args ms r.1 r.2 := by
  induction ns with
  | nil => intro vals s; rfl
  | cons n ns ih =>
    intro vals s
    simp only [List.cons_append, runNodes, Option.bind_assoc]
    congr 1; funext r
    rw [ih]

omit [DecidableEq V] in
theorem runNodes_length {args : List (String × V)} {ns : List (Node Op V)} : ∀ {vals nv : List V} {s s' : σ}, runNodes S args ns vals s = some (nv, s') → nv.length = vals.length + ns.length := by
  induction ns with
  | nil => intro vals nv s s' h; simp only [runNodes, Option.some.injEq, Prod.mk.injEq] at h; simp [h.1]
  | cons n ns ih =>
    intro vals nv s s' h
    simp only [runNodes, Option.bind_eq_some_iff] at h
    obtain ⟨r, -, h⟩ := h
    have := ih h
    simp only [List.length_append, List.length_cons, List.length_nil] at this ⊢
    omega

omit [DecidableEq V] in
theorem getElem?_mono {l : List V} {n : ℕ} {v : V} (h : l[n]? = some v) (x : List V) : (l ++ x)[n]? = some v := by
  rw [List.getElem?_append_left (List.getElem?_eq_some_iff.1 h).1, h]

/-- What an object of the tracer stands for in a run of the model: `v`, given the results of the nodes. -/
def Repr (S : Sem Op Q A V σ) (nv de : List V) (v : V) : Obj V → Prop
  | .raw w => w = v
  | .proxy n _ => nv[n]? = some v ∧ v ≠ S.none
  | .attr _ _ _ (some n) => nv[n]? = some v ∧ v ≠ S.none
  | .attr root name _ none => (∃ r, de[root]? = some r ∧ ∀ s, S.getattr name r s = some v) ∧ v ≠ S.none

omit [DecidableEq V] in
theorem Repr.mono {nv de : List V} {v : V} {o : Obj V} (h : Repr S nv de v o) (x y : List V) : Repr S (nv ++ x) (de ++ y) v o := by
  cases o with
  | raw w => exact h
  | proxy n u => exact ⟨getElem?_mono h.1 x, h.2⟩
  | attr root name u n =>
    cases n with
    | some n => exact ⟨getElem?_mono h.1 x, h.2⟩
    | none =>
      obtain ⟨⟨r, hr, hs⟩, hn⟩ := h
      exact ⟨⟨r, getElem?_mono hr y, hs⟩, hn⟩

/-- The graph recorded so far, run on the input, has come as far as the model. -/
structure Sim (S : Sem Op Q A V σ) (args : List (String × V)) (s0 : σ) (de : List V) (s : σ) (t : T Op V σ) (nv : List V) : Prop where
  run : runNodes S args t.nodes [] s0 = some (nv, s)
  len : t.env.length = de.length
  rel : ∀ (i : ℕ) (o : Obj V), t.env[i]? = some o → ∃ v : V, de[i]? = some v ∧ Repr S nv de v o
  cache : ∀ (name : String) (n : ℕ), t.cache.lookup name = some n → nv[n]? = some (S.attr name)

variable {args : List (String × V)} {s0 s s' : σ} {de nv : List V} {t t' : T Op V σ}

omit [DecidableEq V] in
theorem Sim.congr (h : Sim S args s0 de s t nv) (h1 : t'.nodes = t.nodes) (h2 : t'.env = t.env) (h3 : t'.cache = t.cache) : Sim S args s0 de s t' nv :=
  ⟨by rw [h1]; exact h.run, by rw [h2]; exact h.len, by rw [h2]; exact h.rel, by rw [h3]; exact h.cache⟩

omit [DecidableEq V] in
theorem Sim.length (h : Sim S args s0 de s t nv) : nv.length = t.nodes.length := by simpa using runNodes_length h.run

omit [DecidableEq V] in
theorem Sim.last (h : Sim S args s0 de s t nv) (v : V) : (nv ++ [v])[t.nodes.length]? = some v := by
  rw [← h.length]; simp

omit [DecidableEq V] in
theorem Sim.emit (h : Sim S args s0 de s t nv) {n : Node Op V} {v : V} (hn : n.run S args nv s = some (v, s')) : Sim S args s0 de s' (t.emit n) (nv ++ [v]) := by
  refine ⟨?_, h.len, fun i o hi => ?_, fun name n hc => getElem?_mono (h.cache name n hc) _⟩
  · simp only [T.emit, runNodes_append, h.run, Option.bind_some, runNodes, hn]
  · obtain ⟨v', h1, h2⟩ := h.rel i o hi
    exact ⟨v', h1, by simpa using h2.mono [v] []⟩

omit [DecidableEq V] in
theorem Sim.push (h : Sim S args s0 de s t nv) {o : Obj V} {v : V} (ho : Repr S nv de v o) : Sim S args s0 (de ++ [v]) s (t.push o) nv := by
  refine ⟨h.run, by simp [T.push, h.len], fun i o' hi => ?_, h.cache⟩
  have key : ∀ {v' o''}, Repr S nv de v' o'' → Repr S nv (de ++ [v]) v' o'' := fun hr => by simpa using hr.mono [] [v]
  simp only [T.push] at hi
  rcases Nat.lt_or_ge i t.env.length with hlt | hge
  · rw [List.getElem?_append_left hlt] at hi
    obtain ⟨v', h1, h2⟩ := h.rel i o' hi
    exact ⟨v', getElem?_mono h1 _, key h2⟩
  · rw [List.getElem?_append_right hge] at hi
    have hi0 : i - t.env.length = 0 := by
      by_contra hne
      rw [List.getElem?_eq_none (by simp; omega)] at hi
      simp at hi
    rw [hi0] at hi
    simp only [List.getElem?_cons_zero, Option.some.injEq] at hi
    subst hi
    have : i = de.length := by rw [← h.len]; omega
    exact ⟨v, by rw [this]; simp, key ho⟩

omit [DecidableEq V] in
theorem force_sim (fuel : ℕ) : ∀ {t t' : T Op V σ} {i n : ℕ} {nv : List V}, force fuel t i = some (t', n) → Sim S args s0 de s t nv →
    ∃ x v, Sim S args s0 de s t' (nv ++ x) ∧ de[i]? = some v ∧ (nv ++ x)[n]? = some v := by
  induction fuel with
  | zero => intro t t' i n nv h; simp [force] at h
  | succ fuel ih =>
    intro t t' i n nv h hs
    simp only [force] at h
    split at h
    · rename_i m u he
      simp only [Option.some.injEq, Prod.mk.injEq] at h
      obtain ⟨rfl, rfl⟩ := h
      obtain ⟨v, h1, h2⟩ := hs.rel _ _ he
      exact ⟨[], v, by simpa using hs, h1, by simpa using h2.1⟩
    · rename_i root name u m he
      simp only [Option.some.injEq, Prod.mk.injEq] at h
      obtain ⟨rfl, rfl⟩ := h
      obtain ⟨v, h1, h2⟩ := hs.rel _ _ he
      exact ⟨[], v, by simpa using hs, h1, by simpa using h2.1⟩
    · rename_i root name u he
      simp only [Option.map_eq_some_iff] at h
      obtain ⟨⟨t1, m⟩, hf, h⟩ := h
      simp only [Prod.mk.injEq] at h
      obtain ⟨rfl, rfl⟩ := h
      obtain ⟨x, r, hs1, hr, hm⟩ := ih hf hs
      obtain ⟨v, h1, ⟨r', hr', hget⟩, hnn⟩ := hs.rel _ _ he
      rw [hr] at hr'
      obtain rfl := Option.some.inj hr'
      have hrun : (Node.getattr m name : Node Op V).run S args (nv ++ x) s = some (v, s) := by
        simp only [Node.run, hm, Option.bind_some, hget s, Option.map_some]
      have hs2 := hs1.emit hrun
      refine ⟨x ++ [v], v, ?_, h1, ?_⟩
      · rw [← List.append_assoc]
        refine ⟨hs2.run, by simpa [T.emit] using hs1.len, fun j o hj => ?_, hs2.cache⟩
        by_cases hji : i = j
        · subst hji
          rw [List.getElem?_set] at hj
          simp only [if_true] at hj
          split at hj
          · obtain rfl := Option.some.inj hj
            exact ⟨v, h1, hs1.last v, hnn⟩
          · simp at hj
        · rw [List.getElem?_set_ne hji] at hj
          exact hs2.rel j o hj
      · rw [← List.append_assoc]; exact hs1.last v
    · simp at h

omit [DecidableEq V] in
theorem lowerRaw_sim (h : Sim S args s0 de s t nv) (v : V) : ∃ x, Sim S args s0 de s (lowerRaw S t v).1 (nv ++ x) ∧ (lowerRaw S t v).2.value (nv ++ x) = some v := by
  unfold lowerRaw
  by_cases hv : S.isTensor v = true
  · rw [if_pos hv]
    exact ⟨[v], h.emit (by simp [Node.run]), h.last v⟩
  · rw [if_neg hv]
    exact ⟨[], by simpa using h, rfl⟩

omit [DecidableEq V] in
theorem lowerLeaf_sim {l : Leaf V} {a : NodeArg V} (hl : lowerLeaf S t l = some (t', a)) (h : Sim S args s0 de s t nv) :
    ∃ x v, Sim S args s0 de s t' (nv ++ x) ∧ l.value de = some v ∧ a.value (nv ++ x) = some v := by
  cases l with
  | const v =>
    simp only [lowerLeaf, Option.some.injEq] at hl
    obtain ⟨x, h1, h2⟩ := lowerRaw_sim h v
    rw [hl] at h1 h2
    exact ⟨x, v, h1, rfl, h2⟩
  | ref i =>
    simp only [lowerLeaf] at hl
    split at hl
    · rename_i v he
      simp only [Option.some.injEq] at hl
      obtain ⟨x, h1, h2⟩ := lowerRaw_sim h v
      rw [hl] at h1 h2
      obtain ⟨w, hw, hr⟩ := h.rel _ _ he
      obtain rfl : v = w := hr
      exact ⟨x, v, h1, hw, h2⟩
    · simp only [Option.map_eq_some_iff] at hl
      obtain ⟨⟨t1, n⟩, hf, hl⟩ := hl
      simp only [Prod.mk.injEq] at hl
      obtain ⟨rfl, rfl⟩ := hl
      obtain ⟨x, v, h1, h2, h3⟩ := force_sim _ hf h
      exact ⟨x, v, h1, h2, h3⟩
    · simp at hl

omit [DecidableEq V] in
theorem NodeArg.value_mono {a : NodeArg V} {v : V} (h : a.value nv = some v) (x : List V) : a.value (nv ++ x) = some v := by
  cases a with
  | node n => exact getElem?_mono h x
  | const w => exact h

theorem mapM_cons_some {α β : Type*} {f : α → Option β} {a : α} {l : List α} {b : β} {bs : List β} (h1 : f a = some b) (h2 : l.mapM f = some bs) : (a :: l).mapM f = some (b :: bs) := by
  simp [List.mapM_cons, h1, h2]

theorem mapM_cons_iff {α β : Type*} {f : α → Option β} {a : α} {l : List α} {r : List β} :
    (a :: l).mapM f = some r ↔ ∃ b bs, f a = some b ∧ l.mapM f = some bs ∧ r = b :: bs := by
  simp only [List.mapM_cons, Option.pure_def, Option.bind_eq_bind, Option.bind_eq_some_iff, Option.some.injEq]
  constructor
  · rintro ⟨b, h1, bs, h2, rfl⟩; exact ⟨b, bs, h1, h2, rfl⟩
  · rintro ⟨b, bs, h1, h2, rfl⟩; exact ⟨b, h1, bs, h2, rfl⟩

omit [DecidableEq V] in
theorem lowerAll_sim (ls : List (Leaf V)) : ∀ {t t' : T Op V σ} {as : List (NodeArg V)} {nv : List V}, lowerAll S t ls = some (t', as) → Sim S args s0 de s t nv →
    ∃ x vs, Sim S args s0 de s t' (nv ++ x) ∧ ls.mapM (Leaf.value de) = some vs ∧ as.mapM (NodeArg.value (nv ++ x)) = some vs := by
  induction ls with
  | nil =>
    intro t t' as nv h hs
    simp only [lowerAll, Option.some.injEq, Prod.mk.injEq] at h
    obtain ⟨rfl, rfl⟩ := h
    exact ⟨[], [], by simpa using hs, rfl, rfl⟩
  | cons l ls ih =>
    intro t t' as nv h hs
    simp only [lowerAll, Option.bind_eq_some_iff, Option.map_eq_some_iff] at h
    obtain ⟨⟨t1, a⟩, h1, ⟨t2, as'⟩, h2, h⟩ := h
    simp only [Prod.mk.injEq] at h
    obtain ⟨rfl, rfl⟩ := h
    obtain ⟨x, v, hs1, hl, ha⟩ := lowerLeaf_sim h1 hs
    obtain ⟨y, vs, hs2, hls, has⟩ := ih h2 hs1
    refine ⟨x ++ y, v :: vs, by rw [← List.append_assoc]; exact hs2, mapM_cons_some hl hls, ?_⟩
    rw [← List.append_assoc]
    exact mapM_cons_some (NodeArg.value_mono ha y) has

omit [DecidableEq V] in
theorem createArg_sim {ls : List (Leaf V)} {cs : List Container} {as : List (NodeArg V)} (h : createArg S t ls cs = some (t', as)) (hs : Sim S args s0 de s t nv) :
    ∃ x vs, Sim S args s0 de s t' (nv ++ x) ∧ ls.mapM (Leaf.value de) = some vs ∧ as.mapM (NodeArg.value (nv ++ x)) = some vs := by
  unfold createArg at h
  by_cases hc : Container.namedTuple ∈ cs
  · rw [if_pos hc] at h; simp at h
  · rw [if_neg hc] at h; exact lowerAll_sim ls h hs

theorem createProxy_sim {c : Call Op V} {value : Option V} {ev : Event A} (h : createProxy S t c value = some (t', ev)) (hs : Sim S args s0 de s t nv) {vs : List V} {v : V}
    (hvs : c.args.mapM (Leaf.value de) = some vs) (hrun : S.run c.op vs s = some (v, s')) (hev : ev = .isNone (v = S.none)) : ∃ nv', Sim S args s0 (de ++ [v]) s' t' nv' := by
  simp only [createProxy, Option.map_eq_some_iff] at h
  obtain ⟨⟨t1, as⟩, h1, h⟩ := h
  simp only [Prod.mk.injEq] at h
  obtain ⟨rfl, h⟩ := h
  obtain ⟨x, vs', hs1, h2, h3⟩ := createArg_sim h1 hs
  rw [hvs] at h2
  obtain rfl := Option.some.inj h2
  have hn : (Node.call c.op as).run S args (nv ++ x) s = some (v, s') := by simp only [Node.run, h3, Option.bind_some, hrun]
  have hs2 := hs1.emit hn
  refine ⟨_, hs2.push ?_⟩
  rw [hev] at h
  simp only [Event.isNone.injEq, decide_eq_decide] at h
  unfold wrap
  by_cases hv : value = some S.none
  · rw [if_pos hv]; exact (h.1 hv).symm
  · rw [if_neg hv]; exact ⟨hs1.last v, fun hc => hv (h.2 hc)⟩

theorem record_sim {c : Call Op V} {ev : Event A} (h : record S t c = some (t', ev)) (hs : Sim S args s0 de s t nv) {vs : List V} {v : V}
    (hvs : c.args.mapM (Leaf.value de) = some vs) (hrun : S.run c.op vs s = some (v, s')) (hev : ev = .isNone (v = S.none)) : ∃ nv', Sim S args s0 (de ++ [v]) s' t' nv' := by
  unfold record at h
  split at h
  · simp at h
  · exact createProxy_sim h hs hvs hrun hev
  · simp only [Option.bind_eq_some_iff] at h
    obtain ⟨r, -, h⟩ := h
    exact createProxy_sim h (hs.congr rfl rfl rfl) hvs hrun hev

omit [DecidableEq V] in
/-- Without traced leaves, the values are those of every run. -/
theorem unpack_untraced (hs : Sim S args s0 de s t nv) (ls : List (Leaf V)) : ∀ {ws : List V}, ls.any (Leaf.traced t.env) = false → unpackArgs t.env ls [] = some (some ws) →
    ls.mapM (Leaf.value de) = some ws := by
  simp only [unpackArgs, List.not_mem_nil, if_false, Option.map_eq_some_iff]
  induction ls with
  | nil =>
    rintro ws - ⟨a, h1, h2⟩
    simp only [List.mapM_nil, Option.pure_def, Option.some.injEq] at h1
    subst h1
    simpa using h2
  | cons l ls ih =>
    rintro ws ha ⟨a, h1, h2⟩
    simp only [List.any_cons, Bool.or_eq_false_iff] at ha
    rw [mapM_cons_iff] at h1
    obtain ⟨b, bs, hb, hbs, rfl⟩ := h1
    rw [mapM_cons_iff] at h2
    obtain ⟨w, ws', hw, hws, rfl⟩ := h2
    simp only [id_eq] at hw
    subst hw
    refine mapM_cons_some ?_ (ih ha.2 ⟨bs, hbs, hws⟩)
    cases l with
    | const v => simpa [Leaf.traceValue, Leaf.value] using hb
    | ref i =>
      simp only [Leaf.traceValue, Option.map_eq_some_iff] at hb
      obtain ⟨o, ho, hov⟩ := hb
      have ht : o.traced = false := by simpa [Leaf.traced, ho] using ha.1
      cases o with
      | raw u =>
        obtain ⟨v, h1, h2⟩ := hs.rel _ _ ho
        simp only [Obj.value, Option.some.injEq] at hov
        obtain rfl : u = v := h2
        rw [← hov]; exact h1
      | proxy _ _ => simp [Obj.traced] at ht
      | attr _ _ _ _ => simp [Obj.traced] at ht

theorem plain_sim {c : Call Op V} {ev : Event A} {un : List (Op × List V)} (h : plain S t c = some (t', ev, un)) (ha : c.args.any (Leaf.traced t.env) = false) (hs : Sim S args s0 de s t nv)
    {vs : List V} {v : V} (hvs : c.args.mapM (Leaf.value de) = some vs) (hrun : S.run (c.directOp S) vs s = some (v, s')) (hun : ∀ u ∈ un, Constant S u) :
    ∃ nv', Sim S args s0 (de ++ [v]) s' t' nv' := by
  unfold plain at h
  split at h
  · rename_i ws hws
    have h1 := unpack_untraced hs c.args ha hws
    rw [hvs] at h1
    obtain rfl := Option.some.inj h1
    simp only [Option.map_eq_some_iff, Prod.mk.injEq] at h
    obtain ⟨r, hr, rfl, -, rfl⟩ := h
    obtain ⟨w, hw⟩ := hun _ (List.mem_singleton.2 rfl)
    simp only at hw
    rw [hw] at hr hrun
    obtain rfl := Option.some.inj hr
    simp only [Option.some.injEq, Prod.mk.injEq] at hrun
    obtain ⟨rfl, rfl⟩ := hrun
    exact ⟨nv, (hs.congr (t' := { t with state := t.state }) rfl rfl rfl).push rfl⟩
  · simp at h

theorem tensorMethod_sim {c : Call Op V} {ev : Event A} (h : tensorMethod S t c = some (t', ev)) (hs : Sim S args s0 de s t nv) {vs : List V} {v : V}
    (hvs : c.args.mapM (Leaf.value de) = some vs) (hrun : S.run c.op vs s = some (v, s')) (hev : ev = .isNone (v = S.none)) : ∃ nv', Sim S args s0 (de ++ [v]) s' t' nv' := by
  unfold tensorMethod at h
  split at h
  · split at h
    · exact createProxy_sim h hs hvs hrun hev
    · simp at h
  · simp at h

omit [DecidableEq V] in
theorem recorded_eq {r : Option (T Op V σ × Event A)} {ev : Event A} {un : List (Op × List V)} (h : recorded r = some (t', ev, un)) : r = some (t', ev) ∧ un = [] := by
  simp only [recorded, Option.map_eq_some_iff, Prod.mk.injEq] at h
  obtain ⟨⟨a, b⟩, hr, rfl, rfl, rfl⟩ := h
  exact ⟨hr, rfl⟩

theorem callBound_sim {c : Call Op V} {isMethod : Bool} {ev : Event A} {un : List (Op × List V)} (h : callBound S t c isMethod = some (t', ev, un)) (hs : Sim S args s0 de s t nv) {vs : List V}
    {v : V} (hvs : c.args.mapM (Leaf.value de) = some vs) (hrun : S.run (c.directOp S) vs s = some (v, s')) (hplain : S.run c.op vs s = some (v, s')) (hun : ∀ u ∈ un, Constant S u)
    (hev : ev = .isNone (v = S.none)) : ∃ nv', Sim S args s0 (de ++ [v]) s' t' nv' := by
  unfold callBound at h
  split at h
  · simp at h
  · split at h
    · exact record_sim (recorded_eq h).1 hs hvs hplain hev
    · split at h
      · split at h
        · have h := (recorded_eq h).1
          unfold reflected at h
          split at h
          · exact tensorMethod_sim h hs hvs hplain hev
          · split at h
            · simp at h
            · exact record_sim h hs hvs hplain hev
        · simp at h
      · rename_i ha
        exact plain_sim h (by simpa using ha) hs hvs hrun hun

theorem call_sim {frames : ℕ} {c : Call Op V} {ev : Event A} {un : List (Op × List V)} (h : call S frames t c = some (t', ev, un)) (hs : Sim S args s0 de s t nv) {vs : List V} {v : V}
    (hvs : c.args.mapM (Leaf.value de) = some vs) (hrun : S.run (c.directOp S) vs s = some (v, s')) (haug : PlainAugmented S c) (hun : ∀ u ∈ un, Constant S u)
    (hev : ev = .isNone (v = S.none)) : ∃ nv', Sim S args s0 (de ++ [v]) s' t' nv' := by
  have hplain : S.run c.op vs s = some (v, s') := by
    unfold Call.directOp at hrun
    split at hrun
    · rename_i hk; rw [← haug hk]; exact hrun
    · exact hrun
  unfold call at h
  split at h
  · split at h
    · exact record_sim (recorded_eq h).1 hs hvs hplain hev
    · rename_i ha; exact plain_sim h (by simpa using ha) hs hvs hrun hun
  · split at h
    · split at h
      · exact record_sim (recorded_eq h).1 hs hvs hplain hev
      · rename_i ha; exact plain_sim h (by simpa using ha) hs hvs hrun hun
    · simp at h
  · split at h
    · exact record_sim (recorded_eq h).1 (hs.congr rfl rfl rfl) hvs hplain hev
    · rename_i ha
      split at h
      · exact record_sim (recorded_eq h).1 hs hvs hplain hev
      · exact plain_sim h (by simpa using ha) hs hvs hrun hun
  · exact callBound_sim h hs hvs hrun hplain hun hev
  · exact callBound_sim h hs hvs hrun hplain hun hev
  · exact callBound_sim h hs hvs hrun hplain hun hev
  · have h := (recorded_eq h).1
    unfold callLeaf at h
    split at h
    · simp at h
    · exact createProxy_sim h hs hvs hplain hev
    · simp only [Option.bind_eq_some_iff] at h
      obtain ⟨r, -, h⟩ := h
      exact createProxy_sim h (hs.congr rfl rfl rfl) hvs hplain hev

theorem getattr_sim (hst : StableAttributes S) {name : String} {i : ℕ} {ev : Event A} (h : getattr S t name i = some (t', ev)) (hs : Sim S args s0 de s t nv) {v w : V} (hv : de[i]? = some v)
    (hw : S.getattr name v s = some w) (hev : ev = .isNone (w = S.none)) : Sim S args s0 (de ++ [w]) s t' nv := by
  have hall : ∀ s', S.getattr name v s' = some w := fun s' => by rw [hst name v s' s]; exact hw
  unfold getattr at h
  split at h
  · simp at h
  · rename_i u he
    obtain ⟨v', h1, h2⟩ := hs.rel _ _ he
    rw [hv] at h1
    obtain rfl := Option.some.inj h1
    obtain rfl : u = v := h2
    simp only [hall, Option.map_some, Option.some.injEq, Prod.mk.injEq] at h
    obtain ⟨rfl, -⟩ := h
    exact hs.push rfl
  · rename_i o ho he
    split at h
    · simp only [Option.some.injEq, Prod.mk.injEq] at h
      obtain ⟨rfl, h⟩ := h
      rw [hev] at h
      simp only [Event.isNone.injEq] at h
      exact hs.push ⟨⟨v, hv, hall⟩, by simpa using h.symm⟩
    · simp only [Option.map_eq_some_iff, Prod.mk.injEq] at h
      obtain ⟨w', -, rfl, h⟩ := h
      rw [hev] at h
      simp only [Event.isNone.injEq, decide_eq_decide] at h
      by_cases hn : w' = S.none
      · rw [if_pos hn]
        exact hs.push (h.1 hn).symm
      · rw [if_neg hn]
        exact hs.push ⟨⟨v, hv, hall⟩, fun hc => hn (h.2 hc)⟩

theorem param_sim (hs : Sim S args s0 de s t nv) (name : String) : ∃ nv', Sim S args s0 (de ++ [S.attr name]) s (param S t name) nv' := by
  unfold param
  by_cases hn : S.attr name = S.none
  · rw [if_pos hn]
    exact ⟨nv, hs.push hn.symm⟩
  · rw [if_neg hn]
    split
    · rename_i n hc
      exact ⟨nv, hs.push ⟨hs.cache _ _ hc, hn⟩⟩
    · have hs1 := hs.emit (n := .getAttr (S.attr name)) (v := S.attr name) (s' := s) rfl
      refine ⟨_, Sim.push (t := { t.emit (.getAttr (S.attr name)) with cache := (name, t.nodes.length) :: t.cache }) ⟨hs1.run, hs1.len, hs1.rel, fun name' n hc => ?_⟩ ⟨hs.last _, hn⟩⟩
      simp only [List.lookup_cons] at hc
      by_cases hnm : name' = name
      · subst hnm
        simp only [beq_self_eq_true, Option.some.injEq] at hc
        subst hc
        exact hs.last _
      · simp only [beq_eq_false_iff_ne.2 hnm] at hc
        exact hs1.cache _ _ hc

/-- The graph does what the model does on every input on which the code goes the same way. -/
theorem trace_sim (hst : StableAttributes S) (frames : ℕ) (p : Prog Op Q A V) : ∀ {t t' : T Op V σ} {as : List (NodeArg V)} {path : List (Event A)} {un : List (Op × List V)} {nv de : List V} {s s' : σ}
    {out : List V}, trace S frames p t = some (t', as, path, un) → Sim S args s0 de s t nv → exec S p de s = some (out, s', path) → (∀ u ∈ un, Constant S u) → p.Calls (PlainAugmented S) →
    ∃ nv', runNodes S args t'.nodes [] s0 = some (nv', s') ∧ as.mapM (NodeArg.value nv') = some out := by
  induction p with
  | ret l cs =>
    intro t t' as path un nv de s s' out h hs hx _ _
    simp only [trace, Option.map_eq_some_iff, Prod.mk.injEq] at h
    obtain ⟨⟨t1, as1⟩, h1, rfl, rfl, -, -⟩ := h
    obtain ⟨x, vs, hs1, h2, h3⟩ := createArg_sim h1 hs
    simp only [exec, h2, Option.map_some, Option.some.injEq, Prod.mk.injEq] at hx
    obtain ⟨rfl, rfl, -⟩ := hx
    exact ⟨_, hs1.run, h3⟩
  | call c next ih =>
    intro t t' as path un nv de s s' out h hs hx hun hc
    simp only [trace, Option.bind_eq_some_iff, Option.map_eq_some_iff, Prod.mk.injEq] at h
    obtain ⟨⟨t1, ev, un1⟩, h1, ⟨t2, as2, path2, un2⟩, h2, rfl, rfl, rfl, rfl⟩ := h
    simp only [exec, Option.bind_eq_some_iff, Option.map_eq_some_iff, Prod.mk.injEq] at hx
    obtain ⟨vs, hvs, ⟨v, s1⟩, hrun, ⟨out2, s2, path3⟩, hx2, rfl, rfl, hp⟩ := hx
    simp only [List.cons.injEq] at hp
    obtain ⟨hev, rfl⟩ := hp
    obtain ⟨nv1, hs1⟩ := call_sim h1 hs hvs hrun hc.1 (fun u hu => hun u (List.mem_append_left _ hu)) hev.symm
    exact ih h2 hs1 hx2 (fun u hu => hun u (List.mem_append_right _ hu)) hc.2
  | getattr name i next ih =>
    intro t t' as path un nv de s s' out h hs hx hun hc
    simp only [trace, Option.bind_eq_some_iff, Option.map_eq_some_iff, Prod.mk.injEq] at h
    obtain ⟨⟨t1, ev⟩, h1, ⟨t2, as2, path2, un2⟩, h2, rfl, rfl, rfl, rfl⟩ := h
    simp only [exec, Option.bind_eq_some_iff, Option.map_eq_some_iff, Prod.mk.injEq] at hx
    obtain ⟨v, hv, w, hw, ⟨out2, s2, path3⟩, hx2, rfl, rfl, hp⟩ := hx
    simp only [List.cons.injEq] at hp
    obtain ⟨hev, rfl⟩ := hp
    exact ih h2 (getattr_sim hst h1 hs hv hw hev.symm) hx2 hun hc
  | param name next ih =>
    intro t t' as path un nv de s s' out h hs hx hun hc
    simp only [trace] at h
    simp only [exec] at hx
    obtain ⟨nv1, hs1⟩ := param_sim hs name
    exact ih h hs1 hx hun hc
  | buffer name next ih =>
    intro t t' as path un nv de s s' out h hs hx hun hc
    simp only [trace] at h
    simp only [exec] at hx
    exact ih h (hs.push (o := .raw (S.attr name)) rfl) hx hun hc
  | ask q i next ih =>
    intro t t' as path un nv de s s' out h hs hx hun hc
    simp only [trace, Option.bind_eq_some_iff, Option.map_eq_some_iff, Prod.mk.injEq] at h
    obtain ⟨o, -, v, -, a, -, ⟨t2, as2, path2, un2⟩, h2, rfl, rfl, rfl, rfl⟩ := h
    simp only [exec, Option.bind_eq_some_iff, Option.map_eq_some_iff, Prod.mk.injEq] at hx
    obtain ⟨v', -, a', -, ⟨out2, s2, path3⟩, hx2, rfl, rfl, hp⟩ := hx
    simp only [List.cons.injEq, Event.answer.injEq] at hp
    obtain ⟨rfl, rfl⟩ := hp
    exact ih _ h2 hs hx2 hun (hc _)
  | ifNone i next ih =>
    intro t t' as path un nv de s s' out h hs hx hun hc
    simp only [trace, Option.bind_eq_some_iff] at h
    obtain ⟨o, ho, h⟩ := h
    simp only [exec, Option.bind_eq_some_iff] at hx
    obtain ⟨v, hv, hx⟩ := hx
    obtain ⟨v', h1, h2⟩ := hs.rel _ _ ho
    rw [hv] at h1
    obtain rfl := Option.some.inj h1
    have hno : v ≠ S.none → exec S (next false) de s = some (out, s', path) := fun hne => by rwa [decide_eq_false hne] at hx
    cases o with
    | raw w => obtain rfl : w = v := h2; exact ih _ h hs hx hun (hc _)
    | proxy n u => exact ih _ h hs (hno h2.2) hun (hc _)
    | attr r nm u n =>
      cases n with
      | some n => exact ih _ h hs (hno h2.2) hun (hc _)
      | none => exact ih _ h hs (hno h2.2) hun (hc _)

/-! ### What lowering leaves alone -/

/-- What the rest of the trace sees of an object. -/
def Obj.view (o : Obj V) : Bool × Option V := (o.traced, o.value)

/-- Same objects to the code, same state, and more nodes. -/
structure Same (t t' : T Op V σ) : Prop where
  env : t'.env.map Obj.view = t.env.map Obj.view
  state : t'.state = t.state
  nodes : t.nodes <+: t'.nodes

omit [DecidableEq V] in
theorem Same.refl (t : T Op V σ) : Same t t := ⟨rfl, rfl, List.prefix_rfl⟩

omit [DecidableEq V] in
theorem Same.trans {t t' t'' : T Op V σ} (h : Same t t') (h' : Same t' t'') : Same t t'' := ⟨h'.env.trans h.env, h'.state.trans h.state, h.nodes.trans h'.nodes⟩

omit [DecidableEq V] in
theorem Same.emit (t : T Op V σ) (n : Node Op V) : Same t (t.emit n) := ⟨rfl, rfl, List.prefix_append _ _⟩

omit [DecidableEq V] in
theorem force_same (fuel : ℕ) : ∀ {t t' : T Op V σ} {i n : ℕ}, force fuel t i = some (t', n) → Same t t' := by
  induction fuel with
  | zero => intro t t' i n h; simp [force] at h
  | succ fuel ih =>
    intro t t' i n h
    simp only [force] at h
    split at h
    · simp only [Option.some.injEq, Prod.mk.injEq] at h; obtain ⟨rfl, -⟩ := h; exact .refl _
    · simp only [Option.some.injEq, Prod.mk.injEq] at h; obtain ⟨rfl, -⟩ := h; exact .refl _
    · rename_i root name u he
      simp only [Option.map_eq_some_iff] at h
      obtain ⟨⟨t1, m⟩, hf, h⟩ := h
      simp only [Prod.mk.injEq] at h
      obtain ⟨rfl, -⟩ := h
      have h1 := ih hf
      refine h1.trans ⟨?_, rfl, List.prefix_append _ _⟩
      have hi : (t1.env.map Obj.view)[i]? = some (true, u) := by rw [h1.env, List.getElem?_map, he]; rfl
      rw [List.map_set]
      refine List.ext_getElem? fun j => ?_
      by_cases hj : i = j
      · subst hj
        rw [List.getElem?_set, if_pos rfl, if_pos (List.getElem?_eq_some_iff.1 hi).1, hi]; rfl
      · rw [List.getElem?_set_ne hj]
    · simp at h

omit [DecidableEq V] in
theorem lowerLeaf_same {l : Leaf V} {a : NodeArg V} (h : lowerLeaf S t l = some (t', a)) : Same t t' ∧ ∀ i, l = .ref i → i < t.env.length := by
  have hraw : ∀ v, Same t (lowerRaw S t v).1 := fun v => by
    unfold lowerRaw
    by_cases hv : S.isTensor v = true
    · rw [if_pos hv]; exact .emit _ _
    · rw [if_neg hv]; exact .refl _
  cases l with
  | const v => simp only [lowerLeaf, Option.some.injEq] at h; have := hraw v; rw [h] at this; exact ⟨this, by simp⟩
  | ref i =>
    simp only [lowerLeaf] at h
    split at h
    · rename_i v he
      simp only [Option.some.injEq] at h; have := hraw v; rw [h] at this
      exact ⟨this, fun j hj => by cases hj; exact (List.getElem?_eq_some_iff.1 he).1⟩
    · rename_i he
      simp only [Option.map_eq_some_iff] at h
      obtain ⟨⟨t1, n⟩, hf, h⟩ := h
      simp only [Prod.mk.injEq] at h
      obtain ⟨rfl, -⟩ := h
      exact ⟨force_same _ hf, fun j hj => by cases hj; exact (List.getElem?_eq_some_iff.1 he).1⟩
    · simp at h

omit [DecidableEq V] in
theorem lowerAll_same (ls : List (Leaf V)) : ∀ {t t' : T Op V σ} {as : List (NodeArg V)}, lowerAll S t ls = some (t', as) → Same t t' ∧ ∀ i, .ref i ∈ ls → i < t.env.length := by
  induction ls with
  | nil => intro t t' as h; simp only [lowerAll, Option.some.injEq, Prod.mk.injEq] at h; obtain ⟨rfl, -⟩ := h; exact ⟨.refl _, by simp⟩
  | cons l ls ih =>
    intro t t' as h
    simp only [lowerAll, Option.bind_eq_some_iff, Option.map_eq_some_iff, Prod.mk.injEq] at h
    obtain ⟨⟨t1, a⟩, h1, ⟨t2, as'⟩, h2, rfl, -⟩ := h
    obtain ⟨h3, h4⟩ := lowerLeaf_same h1
    obtain ⟨h5, h6⟩ := ih h2
    refine ⟨h3.trans h5, fun i hi => ?_⟩
    rcases List.mem_cons.1 hi with hi | hi
    · exact h4 i hi.symm
    · have := h6 i hi
      simp only at this
      have hl : t1.env.length = t.env.length := by simpa using congrArg List.length h3.env
      omega

omit [DecidableEq V] in
theorem createArg_same {ls : List (Leaf V)} {cs : List Container} {as : List (NodeArg V)} (h : createArg S t ls cs = some (t', as)) : Same t t' ∧ ∀ i, .ref i ∈ ls → i < t.env.length := by
  unfold createArg at h
  by_cases hc : Container.namedTuple ∈ cs
  · rw [if_pos hc] at h; simp at h
  · rw [if_neg hc] at h; exact lowerAll_same ls h

/-! ### Values -/

/-- Every object of the tracer has the value it has in the run of the model. -/
structure Val (S : Sem Op Q A V σ) (t : T Op V σ) (de : List V) : Prop where
  eq : (t.env.map Obj.view).map Prod.snd = de.map some
  none : (true, some S.none) ∉ t.env.map Obj.view

omit [DecidableEq V] in
theorem Val.same (h : Val S t de) (hs : Same t t') : Val S t' de := ⟨by rw [hs.env]; exact h.eq, by rw [hs.env]; exact h.none⟩

omit [DecidableEq V] in
theorem Val.push (h : Val S t de) {o : Obj V} {v : V} (hv : o.value = some v) (hn : o.traced = true → v ≠ S.none) : Val S (t.push o) (de ++ [v]) := by
  constructor
  · simp only [T.push, List.map_append, h.eq, List.map_cons, List.map_nil, Obj.view, hv]
  · simp only [T.push, List.map_append, List.mem_append, not_or, List.map_cons, List.map_nil, List.mem_singleton]
    refine ⟨h.none, fun he => ?_⟩
    simp only [Obj.view, Prod.mk.injEq] at he
    rw [hv] at he
    exact hn he.1.symm (Option.some.inj he.2).symm

omit [DecidableEq V] in
theorem Val.length (h : Val S t de) : t.env.length = de.length := by simpa using congrArg List.length h.eq

omit [DecidableEq V] in
theorem Val.get (h : Val S t de) {i : ℕ} {o : Obj V} (ho : t.env[i]? = some o) : ∃ v, de[i]? = some v ∧ o.value = some v ∧ (o.traced = true → v ≠ S.none) := by
  have h1 : ((t.env.map Obj.view).map Prod.snd)[i]? = some o.value := by simp [ho, Obj.view]
  rw [h.eq, List.getElem?_map, Option.map_eq_some_iff] at h1
  obtain ⟨v, hv, he⟩ := h1
  refine ⟨v, hv, he.symm, fun ht hc => h.none ?_⟩
  refine List.mem_map.2 ⟨o, List.mem_of_getElem? ho, ?_⟩
  simp [Obj.view, ht, ← he, hc]

omit [DecidableEq V] in
theorem Val.leaf (h : Val S t de) (l : Leaf V) : l.traceValue t.env = (l.value de).map some := by
  cases l with
  | const v => rfl
  | ref i =>
    simp only [Leaf.traceValue, Leaf.value]
    rcases ho : t.env[i]? with _ | o
    · have : de[i]? = .none := by rw [List.getElem?_eq_none_iff, ← h.length]; exact List.getElem?_eq_none_iff.1 ho
      rw [this]; rfl
    · obtain ⟨v, hv, hov, -⟩ := h.get ho
      rw [hv, Option.map_some, Option.map_some, hov]

omit [DecidableEq V] in
theorem Val.leaves (h : Val S t de) (ls : List (Leaf V)) : ls.mapM (Leaf.traceValue t.env) = (ls.mapM (Leaf.value de)).map (List.map some) := by
  induction ls with
  | nil => rfl
  | cons l ls ih =>
    rw [List.mapM_cons, List.mapM_cons, ih, h.leaf]
    cases l.value de <;> cases ls.mapM (Leaf.value de) <;> rfl

omit [DecidableEq V] in
theorem mapM_id_some (vs : List V) : (vs.map some).mapM id = some vs := by
  induction vs with
  | nil => rfl
  | cons v vs ih => exact mapM_cons_some rfl ih

omit [DecidableEq V] in
theorem Val.unpack (h : Val S t de) {ls : List (Leaf V)} {cs : List Container} {o : Option (List V)} (hu : unpackArgs t.env ls cs = some o) : ∃ vs, o = some vs ∧ ls.mapM (Leaf.value de) = some vs := by
  unfold unpackArgs at hu
  by_cases hc : Container.range ∈ cs
  · rw [if_pos hc] at hu; simp at hu
  · rw [if_neg hc, h.leaves] at hu
    rcases hl : ls.mapM (Leaf.value de) with _ | vs
    · rw [hl] at hu; simp at hu
    · rw [hl] at hu
      simp only [Option.map_some, Option.some.injEq] at hu
      exact ⟨vs, by rw [← hu]; exact mapM_id_some vs, rfl⟩

omit [DecidableEq V] in
theorem mapM_value_some {ls : List (Leaf V)} (h : ∀ i, .ref i ∈ ls → i < de.length) : ∃ vs, ls.mapM (Leaf.value de) = some vs := by
  induction ls with
  | nil => exact ⟨[], rfl⟩
  | cons l ls ih =>
    obtain ⟨vs, hvs⟩ := ih fun i hi => h i (List.mem_cons_of_mem _ hi)
    cases l with
    | const v => exact ⟨v :: vs, mapM_cons_some rfl hvs⟩
    | ref i =>
      have := h i List.mem_cons_self
      exact ⟨de[i] :: vs, mapM_cons_some (List.getElem?_eq_getElem this) hvs⟩

theorem createProxy_val {c : Call Op V} {v : V} {ev : Event A} (h : createProxy S t c (some v) = some (t', ev)) (hv : Val S t de) :
    Val S t' (de ++ [v]) ∧ t'.state = t.state ∧ ev = .isNone (v = S.none) := by
  simp only [createProxy, Option.map_eq_some_iff] at h
  obtain ⟨⟨t1, as⟩, h1, h⟩ := h
  simp only [Prod.mk.injEq] at h
  obtain ⟨rfl, h⟩ := h
  have hsame := (createArg_same h1).1
  refine ⟨((hv.same hsame).same (.emit _ _)).push ?_ ?_, hsame.state, by rw [← h]; simp⟩
  · unfold wrap; by_cases hn : some v = some S.none
    · rw [if_pos hn, hn]; rfl
    · rw [if_neg hn]; rfl
  · unfold wrap; by_cases hn : some v = some S.none
    · rw [if_pos hn]; simp [Obj.traced]
    · rw [if_neg hn]; intro _ hc; exact hn (by rw [hc])

theorem Val.setState (h : Val S t de) (s : σ) : Val S { t with state := s } de := ⟨h.eq, h.none⟩

theorem record_val {c : Call Op V} {ev : Event A} (h : record S t c = some (t', ev)) (hv : Val S t de) :
    ∃ vs v, c.args.mapM (Leaf.value de) = some vs ∧ S.run c.op vs t.state = some (v, t'.state) ∧ ev = .isNone (v = S.none) ∧ Val S t' (de ++ [v]) := by
  unfold record at h
  split at h
  · simp at h
  · rename_i hu
    obtain ⟨vs, h1, -⟩ := hv.unpack hu
    simp at h1
  · rename_i vs hu
    obtain ⟨vs', h1, hvs⟩ := hv.unpack hu
    obtain rfl := Option.some.inj h1
    simp only [Option.bind_eq_some_iff] at h
    obtain ⟨⟨v, s1⟩, hr, h⟩ := h
    obtain ⟨h2, h3, h4⟩ := createProxy_val h (hv.setState s1)
    exact ⟨vs, v, hvs, by rw [h3]; exact hr, h4, h2⟩

theorem plain_val {c : Call Op V} {ev : Event A} {un : List (Op × List V)} (h : plain S t c = some (t', ev, un)) (hv : Val S t de) :
    ∃ vs v, c.args.mapM (Leaf.value de) = some vs ∧ S.run (c.directOp S) vs t.state = some (v, t'.state) ∧ ev = .isNone (v = S.none) ∧ Val S t' (de ++ [v]) := by
  unfold plain at h
  split at h
  · rename_i vs hu
    obtain ⟨vs', h1, hvs⟩ := hv.unpack hu
    obtain rfl := Option.some.inj h1
    simp only [Option.map_eq_some_iff, Prod.mk.injEq] at h
    obtain ⟨⟨v, s1⟩, hr, rfl, rfl, -⟩ := h
    exact ⟨vs, v, hvs, hr, rfl, (hv.setState s1).push rfl (by simp [Obj.traced])⟩
  · simp at h

theorem tensorMethod_val {c : Call Op V} {ev : Event A} (h : tensorMethod S t c = some (t', ev)) (hv : Val S t de) : False := by
  unfold tensorMethod at h
  split at h
  · rename_i i rest heq
    have hmem : (i, some none) ∈ (i, some none) :: rest := List.mem_cons_self
    rw [← heq] at hmem
    obtain ⟨l, -, hl⟩ := List.mem_map.1 hmem
    have : l.traceValue t.env = some none := by
      cases l <;> simp only [Prod.mk.injEq] at hl <;> exact hl.2
    rw [hv.leaf] at this
    simp at this
  · simp at h

theorem call_val {frames : ℕ} {c : Call Op V} {ev : Event A} {un : List (Op × List V)} (h : call S frames t c = some (t', ev, un)) (hv : Val S t de) (haug : PlainAugmented S c) :
    ∃ vs v, c.args.mapM (Leaf.value de) = some vs ∧ S.run (c.directOp S) vs t.state = some (v, t'.state) ∧ ev = .isNone (v = S.none) ∧ Val S t' (de ++ [v]) := by
  have hrec : ∀ {t : T Op V σ}, Val S t de → record S t c = some (t', ev) →
      ∃ vs v, c.args.mapM (Leaf.value de) = some vs ∧ S.run (c.directOp S) vs t.state = some (v, t'.state) ∧ ev = .isNone (v = S.none) ∧ Val S t' (de ++ [v]) := by
    intro t hv h
    obtain ⟨vs, v, h1, h2, h3⟩ := record_val h hv
    refine ⟨vs, v, h1, ?_, h3⟩
    unfold Call.directOp
    split
    · rename_i hk; rw [haug hk]; exact h2
    · exact h2
  have hbound : ∀ {b}, callBound S t c b = some (t', ev, un) →
      ∃ vs v, c.args.mapM (Leaf.value de) = some vs ∧ S.run (c.directOp S) vs t.state = some (v, t'.state) ∧ ev = .isNone (v = S.none) ∧ Val S t' (de ++ [v]) := by
    intro b h
    unfold callBound at h
    split at h
    · simp at h
    · split at h
      · exact hrec hv (recorded_eq h).1
      · split at h
        · split at h
          · have h := (recorded_eq h).1
            unfold reflected at h
            split at h
            · exact (tensorMethod_val h hv).elim
            · split at h
              · simp at h
              · exact hrec hv h
          · simp at h
        · exact plain_val h hv
  unfold call at h
  split at h
  · split at h
    · exact hrec hv (recorded_eq h).1
    · exact plain_val h hv
  · split at h
    · split at h
      · exact hrec hv (recorded_eq h).1
      · exact plain_val h hv
    · simp at h
  · rename_i name _
    split at h
    · exact hrec (t := { t with seen := name :: t.seen }) ⟨hv.eq, hv.none⟩ (recorded_eq h).1
    · split at h
      · exact hrec hv (recorded_eq h).1
      · exact plain_val h hv
  · exact hbound h
  · exact hbound h
  · exact hbound h
  · rename_i sub hk
    have h := (recorded_eq h).1
    unfold callLeaf at h
    split at h
    · simp at h
    · rename_i hu
      obtain ⟨vs, h1, -⟩ := hv.unpack hu
      simp at h1
    · rename_i vs hu
      obtain ⟨vs', h1, hvs⟩ := hv.unpack hu
      obtain rfl := Option.some.inj h1
      simp only [Option.bind_eq_some_iff] at h
      obtain ⟨⟨v, s1⟩, hr, h⟩ := h
      have hr' : S.run c.op vs t.state = some (v, s1) := by
        cases sub with
        | false => simpa using hr
        | true =>
          exfalso
          simp only [if_true] at hr
          have : ∀ n, submoduleCall S n c.op vs t.state = none := by
            intro n; induction n with
            | zero => rfl
            | succ n ih => exact ih
          rw [this] at hr
          simp at hr
      obtain ⟨h2, h3, h4⟩ := createProxy_val h (hv.setState s1)
      refine ⟨vs, v, hvs, ?_, h4, h2⟩
      have : c.directOp S = c.op := by unfold Call.directOp; rw [hk]
      rw [this, h3]; exact hr'

theorem getattr_val {name : String} {i : ℕ} {ev : Event A} (h : getattr S t name i = some (t', ev)) (hv : Val S t de) :
    ∃ v w, de[i]? = some v ∧ S.getattr name v t.state = some w ∧ ev = .isNone (w = S.none) ∧ t'.state = t.state ∧ Val S t' (de ++ [w]) := by
  unfold getattr at h
  split at h
  · simp at h
  · rename_i u he
    obtain ⟨v, h1, h2, -⟩ := hv.get he
    obtain rfl := Option.some.inj h2
    simp only [Option.map_eq_some_iff, Prod.mk.injEq] at h
    obtain ⟨w, hw, rfl, rfl⟩ := h
    exact ⟨u, w, h1, hw, rfl, rfl, hv.push rfl (by simp [Obj.traced])⟩
  · rename_i o _ he
    obtain ⟨v, h1, h2, -⟩ := hv.get he
    rw [h2] at h
    simp only [Option.map_eq_some_iff, Prod.mk.injEq] at h
    obtain ⟨w, hw, rfl, rfl⟩ := h
    refine ⟨v, w, h1, hw, rfl, rfl, hv.push ?_ ?_⟩
    · by_cases hn : w = S.none
      · rw [if_pos hn, hn]; rfl
      · rw [if_neg hn]; rfl
    · by_cases hn : w = S.none
      · rw [if_pos hn]; simp [Obj.traced]
      · rw [if_neg hn]; exact fun _ => hn

theorem param_val (hv : Val S t de) (name : String) : Val S (param S t name) (de ++ [S.attr name]) ∧ (param S t name).state = t.state := by
  unfold param
  by_cases hn : S.attr name = S.none
  · rw [if_pos hn]; exact ⟨hv.push (by rw [hn]; rfl) (by simp [Obj.traced]), rfl⟩
  · rw [if_neg hn]
    split
    · exact ⟨hv.push rfl fun _ => hn, rfl⟩
    · exact ⟨Val.push (t := { t.emit (.getAttr (S.attr name)) with cache := (name, t.nodes.length) :: t.cache }) ⟨hv.eq, hv.none⟩ rfl fun _ => hn, rfl⟩

/-- Tracing with all values known runs the model. -/
theorem trace_val (frames : ℕ) (p : Prog Op Q A V) : ∀ {t t' : T Op V σ} {as : List (NodeArg V)} {path : List (Event A)} {un : List (Op × List V)} {de : List V},
    trace S frames p t = some (t', as, path, un) → Val S t de → p.Calls (PlainAugmented S) → ∃ out, exec S p de t.state = some (out, t'.state, path) := by
  induction p with
  | ret l cs =>
    intro t t' as path un de h hv _
    simp only [trace, Option.map_eq_some_iff, Prod.mk.injEq] at h
    obtain ⟨⟨t1, as1⟩, h1, rfl, rfl, rfl, -⟩ := h
    obtain ⟨hsame, hlt⟩ := createArg_same h1
    obtain ⟨vs, hvs⟩ := mapM_value_some (de := de) fun i hi => by rw [← hv.length]; exact hlt i hi
    exact ⟨vs, by simp only [exec, hvs, Option.map_some, hsame.state]⟩
  | call c next ih =>
    intro t t' as path un de h hv hc
    simp only [trace, Option.bind_eq_some_iff, Option.map_eq_some_iff, Prod.mk.injEq] at h
    obtain ⟨⟨t1, ev, un1⟩, h1, ⟨t2, as2, path2, un2⟩, h2, rfl, rfl, rfl, rfl⟩ := h
    obtain ⟨vs, v, hvs, hrun, hev, hv1⟩ := call_val h1 hv hc.1
    obtain ⟨out, ho⟩ := ih h2 hv1 hc.2
    exact ⟨out, by simp only [exec, hvs, Option.bind_some, hrun, ho, Option.map_some, hev]⟩
  | getattr name i next ih =>
    intro t t' as path un de h hv hc
    simp only [trace, Option.bind_eq_some_iff, Option.map_eq_some_iff, Prod.mk.injEq] at h
    obtain ⟨⟨t1, ev⟩, h1, ⟨t2, as2, path2, un2⟩, h2, rfl, rfl, rfl, rfl⟩ := h
    obtain ⟨v, w, hv1, hw, hev, hst, hv2⟩ := getattr_val h1 hv
    obtain ⟨out, ho⟩ := ih h2 hv2 hc
    rw [hst] at ho
    exact ⟨out, by simp only [exec, hv1, Option.bind_some, hw, ho, Option.map_some, hev]⟩
  | param name next ih =>
    intro t t' as path un de h hv hc
    simp only [trace] at h
    obtain ⟨h1, h2⟩ := param_val hv name
    obtain ⟨out, ho⟩ := ih h h1 hc
    exact ⟨out, by simp only [exec]; rw [← h2]; exact ho⟩
  | buffer name next ih =>
    intro t t' as path un de h hv hc
    simp only [trace] at h
    obtain ⟨out, ho⟩ := ih h (hv.push (o := .raw (S.attr name)) rfl (by simp [Obj.traced])) hc
    exact ⟨out, ho⟩
  | ask q i next ih =>
    intro t t' as path un de h hv hc
    simp only [trace, Option.bind_eq_some_iff, Option.map_eq_some_iff, Prod.mk.injEq] at h
    obtain ⟨o, ho, v, hov, a, ha, ⟨t2, as2, path2, un2⟩, h2, rfl, rfl, rfl, rfl⟩ := h
    obtain ⟨v', h1, h3, -⟩ := hv.get ho
    rw [hov] at h3
    obtain rfl := Option.some.inj h3
    obtain ⟨out, hx⟩ := ih a h2 hv (hc a)
    exact ⟨out, by simp only [exec, h1, Option.bind_some, ha, hx, Option.map_some]⟩
  | ifNone i next ih =>
    intro t t' as path un de h hv hc
    simp only [trace, Option.bind_eq_some_iff] at h
    obtain ⟨o, ho, h⟩ := h
    obtain ⟨v, h1, h3, h4⟩ := hv.get ho
    simp only [exec, h1, Option.bind_some]
    cases o with
    | raw w => obtain rfl := Option.some.inj h3; exact ih _ h hv (hc _)
    | proxy n u => rw [decide_eq_false (h4 rfl)]; exact ih _ h hv (hc _)
    | attr r nm u n => rw [decide_eq_false (h4 rfl)]; exact ih _ h hv (hc _)

/-! ### Nodes are only added -/

theorem createProxy_nodes {c : Call Op V} {value : Option V} {ev : Event A} (h : createProxy S t c value = some (t', ev)) : t.nodes <+: t'.nodes := by
  simp only [createProxy, Option.map_eq_some_iff, Prod.mk.injEq] at h
  obtain ⟨⟨t1, as⟩, h1, rfl, -⟩ := h
  exact (createArg_same h1).1.nodes.trans (List.prefix_append _ _)

theorem record_nodes {c : Call Op V} {ev : Event A} (h : record S t c = some (t', ev)) : t.nodes <+: t'.nodes := by
  unfold record at h
  split at h
  · simp at h
  · exact createProxy_nodes h
  · simp only [Option.bind_eq_some_iff] at h
    obtain ⟨r, -, h⟩ := h
    exact createProxy_nodes (t := { t with state := r.2 }) h

theorem plain_nodes {c : Call Op V} {ev : Event A} {un : List (Op × List V)} (h : plain S t c = some (t', ev, un)) : t.nodes <+: t'.nodes := by
  unfold plain at h
  split at h
  · simp only [Option.map_eq_some_iff, Prod.mk.injEq] at h
    obtain ⟨r, -, rfl, -⟩ := h
    exact List.prefix_rfl
  · simp at h

theorem call_nodes {frames : ℕ} {c : Call Op V} {ev : Event A} {un : List (Op × List V)} (h : call S frames t c = some (t', ev, un)) : t.nodes <+: t'.nodes := by
  have hbound : ∀ {b}, callBound S t c b = some (t', ev, un) → t.nodes <+: t'.nodes := by
    intro b h
    unfold callBound at h
    split at h
    · simp at h
    · split at h
      · exact record_nodes (recorded_eq h).1
      · split at h
        · split at h
          · have h := (recorded_eq h).1
            unfold reflected at h
            split at h
            · unfold tensorMethod at h
              split at h
              · split at h
                · exact createProxy_nodes h
                · simp at h
              · simp at h
            · split at h
              · simp at h
              · exact record_nodes h
          · simp at h
        · exact plain_nodes h
  unfold call at h
  split at h
  · split at h
    · exact record_nodes (recorded_eq h).1
    · exact plain_nodes h
  · split at h
    · split at h
      · exact record_nodes (recorded_eq h).1
      · exact plain_nodes h
    · simp at h
  · rename_i name _
    split at h
    · exact record_nodes (t := { t with seen := name :: t.seen }) (recorded_eq h).1
    · split at h
      · exact record_nodes (recorded_eq h).1
      · exact plain_nodes h
  · exact hbound h
  · exact hbound h
  · exact hbound h
  · have h := (recorded_eq h).1
    unfold callLeaf at h
    split at h
    · simp at h
    · exact createProxy_nodes h
    · simp only [Option.bind_eq_some_iff] at h
      obtain ⟨r, -, h⟩ := h
      exact createProxy_nodes (t := { t with state := r.2 }) h

theorem getattr_nodes {name : String} {i : ℕ} {ev : Event A} (h : getattr S t name i = some (t', ev)) : t'.nodes = t.nodes := by
  unfold getattr at h
  split at h
  · simp at h
  · simp only [Option.map_eq_some_iff, Prod.mk.injEq] at h
    obtain ⟨w, -, rfl, -⟩ := h; rfl
  · split at h
    · simp only [Option.some.injEq, Prod.mk.injEq] at h
      obtain ⟨rfl, -⟩ := h; rfl
    · simp only [Option.map_eq_some_iff, Prod.mk.injEq] at h
      obtain ⟨w, -, rfl, -⟩ := h; rfl

theorem trace_nodes (frames : ℕ) (p : Prog Op Q A V) : ∀ {t t' : T Op V σ} {as : List (NodeArg V)} {path : List (Event A)} {un : List (Op × List V)},
    trace S frames p t = some (t', as, path, un) → t.nodes <+: t'.nodes := by
  induction p with
  | ret l cs =>
    intro t t' as path un h
    simp only [trace, Option.map_eq_some_iff, Prod.mk.injEq] at h
    obtain ⟨⟨t1, as1⟩, h1, rfl, -⟩ := h
    exact (createArg_same h1).1.nodes
  | call c next ih =>
    intro t t' as path un h
    simp only [trace, Option.bind_eq_some_iff, Option.map_eq_some_iff, Prod.mk.injEq] at h
    obtain ⟨⟨t1, ev, un1⟩, h1, ⟨t2, as2, path2, un2⟩, h2, rfl, -⟩ := h
    exact (call_nodes h1).trans (ih h2)
  | getattr name i next ih =>
    intro t t' as path un h
    simp only [trace, Option.bind_eq_some_iff, Option.map_eq_some_iff, Prod.mk.injEq] at h
    obtain ⟨⟨t1, ev⟩, h1, ⟨t2, as2, path2, un2⟩, h2, rfl, -⟩ := h
    have := ih h2
    rwa [getattr_nodes h1] at this
  | param name next ih =>
    intro t t' as path un h
    simp only [trace] at h
    refine List.IsPrefix.trans ?_ (ih h)
    unfold param
    split
    · exact List.prefix_rfl
    · split
      · exact List.prefix_rfl
      · exact List.prefix_append _ _
  | buffer name next ih => intro t t' as path un h; simp only [trace] at h; have := ih h; exact this
  | ask q i next ih =>
    intro t t' as path un h
    simp only [trace, Option.bind_eq_some_iff, Option.map_eq_some_iff, Prod.mk.injEq] at h
    obtain ⟨o, -, v, -, a, -, ⟨t2, as2, path2, un2⟩, h2, rfl, -⟩ := h
    exact ih a h2
  | ifNone i next ih =>
    intro t t' as path un h
    simp only [trace, Option.bind_eq_some_iff] at h
    obtain ⟨o, -, h⟩ := h
    exact ih _ h

/-! ### Arguments -/

theorem placeholder_sim {values : List (String × V)} (hs : Sim S args s0 de s t nv) (p : Param V) {v : V} (hv : p.value args = some v)
    (hev : (placeholder (A := A) S values t p).2 = .isNone (v = S.none)) : ∃ nv', Sim S args s0 (de ++ [v]) s (placeholder (A := A) S values t p).1 nv' := by
  have hnode : ∀ {d : Option V}, d = p.default → (Node.placeholder p.name d : Node Op V).run S args nv s = some (v, s) := by
    rintro d rfl
    simp only [Param.value] at hv
    simp only [Node.run]
    rcases hl : args.lookup p.name with _ | w
    · rw [hl] at hv; simp only at hv; simp [hv]
    · rw [hl] at hv; simp only at hv; simpa using hv
  unfold placeholder at hev ⊢
  split at hev
  · rename_i _ w hw
    simp only [hw]
    simp only [Event.isNone.injEq, decide_eq_decide] at hev
    refine ⟨_, (hs.emit (hnode rfl)).push ?_⟩
    unfold wrap
    by_cases hn : some w = some S.none
    · rw [if_pos hn]; exact (hev.1 (Option.some.inj hn)).symm
    · rw [if_neg hn]; exact ⟨hs.last v, fun hc => hn (by rw [hev.2 hc])⟩
  · rename_i hw hd
    simp only [hw, hd]
    simp only [Event.isNone.injEq] at hev
    refine ⟨_, (hs.emit (hnode hd.symm)).push ?_⟩
    unfold wrap
    rw [if_neg (by simp)]
    exact ⟨hs.last v, by simpa using hev.symm⟩
  · rename_i _ _ d hw hd
    by_cases hn : d = S.none
    · rw [if_pos hn] at hev ⊢
      simp only [Event.isNone.injEq] at hev
      have hvn : v = S.none := by simpa using hev.symm
      exact ⟨nv, hs.push hvn.symm⟩
    · rw [if_neg hn] at hev ⊢
      simp only [Event.isNone.injEq] at hev
      refine ⟨_, (hs.emit (hnode hd.symm)).push ?_⟩
      unfold wrap
      rw [if_neg (by simpa using hn)]
      exact ⟨hs.last v, by simpa using hev.symm⟩

theorem placeholders_sim {values : List (String × V)} (sig : List (Param V)) : ∀ {t : T Op V σ} {de nv vs : List V}, Sim S args s0 de s t nv → sig.mapM (Param.value args) = some vs →
    (placeholders (A := A) S values sig t).2 = vs.map (fun v => .isNone (v = S.none)) → ∃ nv', Sim S args s0 (de ++ vs) s (placeholders (A := A) S values sig t).1 nv' := by
  induction sig with
  | nil =>
    intro t de nv vs hs hvs _
    simp only [List.mapM_nil, Option.pure_def, Option.some.injEq] at hvs
    subst hvs
    exact ⟨nv, by simpa [placeholders] using hs⟩
  | cons p sig ih =>
    intro t de nv vs hs hvs hev
    rw [mapM_cons_iff] at hvs
    obtain ⟨v, vs', hv, hvs', rfl⟩ := hvs
    simp only [placeholders, List.map_cons, List.cons.injEq] at hev
    obtain ⟨nv1, hs1⟩ := placeholder_sim hs p hv hev.1
    obtain ⟨nv2, hs2⟩ := ih hs1 hvs' hev.2
    exact ⟨nv2, by simpa [placeholders] using hs2⟩

theorem placeholder_val {values : List (String × V)} (hv : Val S t de) (p : Param V) {v : V} (hp : p.value values = some v) :
    Val S (placeholder (A := A) S values t p).1 (de ++ [v]) ∧ (placeholder (A := A) S values t p).2 = .isNone (v = S.none) ∧ (placeholder (A := A) S values t p).1.state = t.state := by
  have hw : ∀ n, (wrap S n (some v)).value = some v ∧ ((wrap S n (some v)).traced = true → v ≠ S.none) := fun n => by
    unfold wrap
    by_cases hn : some v = some S.none
    · rw [if_pos hn, hn]; exact ⟨rfl, by simp [Obj.traced]⟩
    · rw [if_neg hn]; exact ⟨rfl, fun _ hc => hn (by rw [hc])⟩
  simp only [Param.value] at hp
  unfold placeholder
  split
  · rename_i w _ hl
    rw [hl] at hp
    obtain rfl := Option.some.inj hp
    exact ⟨(hv.same (.emit _ _)).push (hw _).1 (hw _).2, rfl, rfl⟩
  · rename_i hl hd
    rw [hl, hd] at hp
    simp at hp
  · rename_i d hl hd
    rw [hl, hd] at hp
    obtain rfl := Option.some.inj hp
    split
    · rename_i hn
      exact ⟨hv.push (by rw [hn]; rfl) (by simp [Obj.traced]), by simp [hn], rfl⟩
    · rename_i hn
      exact ⟨(hv.same (.emit _ _)).push (hw _).1 (hw _).2, by simp [hn], rfl⟩

theorem placeholders_val {values : List (String × V)} (sig : List (Param V)) : ∀ {t : T Op V σ} {de vs : List V}, Val S t de → sig.mapM (Param.value values) = some vs →
    Val S (placeholders (A := A) S values sig t).1 (de ++ vs) ∧ (placeholders (A := A) S values sig t).2 = vs.map (fun v => .isNone (v = S.none)) ∧
      (placeholders (A := A) S values sig t).1.state = t.state := by
  induction sig with
  | nil =>
    intro t de vs hv hvs
    simp only [List.mapM_nil, Option.pure_def, Option.some.injEq] at hvs
    subst hvs
    exact ⟨by simpa [placeholders] using hv, rfl, rfl⟩
  | cons p sig ih =>
    intro t de vs hv hvs
    rw [mapM_cons_iff] at hvs
    obtain ⟨v, vs', hp, hvs', rfl⟩ := hvs
    obtain ⟨h1, h2, h3⟩ := placeholder_val (A := A) hv p hp
    obtain ⟨h4, h5, h6⟩ := ih h1 hvs'
    exact ⟨by simpa [placeholders] using h4, by simp only [placeholders, h2, h5, List.map_cons], by simp only [placeholders, h6, h3]⟩

/-- The parameters that get a placeholder: those given a value, and those that do not default to `None`. -/
theorem placeholders_mem {values : List (String × V)} (sig : List (Param V)) : ∀ {t : T Op V σ}, t.nodes <+: (placeholders (A := A) S values sig t).1.nodes ∧
    ∀ p ∈ sig, (values.lookup p.name ≠ none ∨ p.default ≠ some S.none) → .placeholder p.name p.default ∈ (placeholders (A := A) S values sig t).1.nodes := by
  induction sig with
  | nil => intro t; exact ⟨List.prefix_rfl, by simp⟩
  | cons p sig ih =>
    intro t
    have h1 : t.nodes <+: (placeholder (A := A) S values t p).1.nodes ∧
        ((values.lookup p.name ≠ none ∨ p.default ≠ some S.none) → .placeholder p.name p.default ∈ (placeholder (A := A) S values t p).1.nodes) := by
      unfold placeholder
      split
      · exact ⟨List.prefix_append _ _, fun _ => by simp [T.emit, T.push]⟩
      · rename_i hl hd
        exact ⟨List.prefix_append _ _, fun _ => by simp [T.emit, T.push, hd]⟩
      · rename_i d hl hd
        split
        · rename_i hn
          refine ⟨List.prefix_rfl, fun hc => ?_⟩
          rcases hc with hc | hc
          · exact (hc hl).elim
          · exact (hc (by rw [hd, hn])).elim
        · exact ⟨List.prefix_append _ _, fun _ => by simp [T.emit, T.push, hd]⟩
    obtain ⟨h2, h3⟩ := ih (t := (placeholder (A := A) S values t p).1)
    refine ⟨h1.1.trans (by simpa [placeholders] using h2), fun q hq hc => ?_⟩
    simp only [placeholders]
    rcases List.mem_cons.1 hq with rfl | hq
    · exact h2.subset (h1.2 hc)
    · exact h3 q hq hc

/-! ### When tracing succeeds -/

/-- The root of an attribute that has no node yet came up before it, and is traced. -/
def WF (env : List (Obj V)) : Prop := ∀ (i root : ℕ) (name : String) (v : Option V), env[i]? = some (.attr root name v none) → root < i ∧ ∃ o, env[root]? = some o ∧ o.traced = true

omit [DecidableEq V] in
theorem WF.push {env : List (Obj V)} (h : WF env) {o : Obj V} (ho : ∀ root name v, o = .attr root name v none → ∃ o', env[root]? = some o' ∧ o'.traced = true) : WF (env ++ [o]) := by
  have up : ∀ {root : ℕ} {o' : Obj V}, env[root]? = some o' → (env ++ [o])[root]? = some o' := fun hr => by rw [List.getElem?_append_left (List.getElem?_eq_some_iff.1 hr).1, hr]
  intro i root name v hi
  rcases Nat.lt_or_ge i env.length with hlt | hge
  · rw [List.getElem?_append_left hlt] at hi
    obtain ⟨h1, o', h2, h3⟩ := h i root name v hi
    exact ⟨h1, o', up h2, h3⟩
  · rw [List.getElem?_append_right hge] at hi
    have hi0 : i - env.length = 0 := by
      by_contra hne
      rw [List.getElem?_eq_none (by simp; omega)] at hi
      simp at hi
    rw [hi0] at hi
    simp only [List.getElem?_cons_zero, Option.some.injEq] at hi
    obtain ⟨o', h2, h3⟩ := ho root name v hi
    have := (List.getElem?_eq_some_iff.1 h2).1
    exact ⟨by omega, o', up h2, h3⟩

omit [DecidableEq V] in
theorem force_wf (fuel : ℕ) : ∀ {t t' : T Op V σ} {i n : ℕ}, force fuel t i = some (t', n) → WF t.env → WF t'.env := by
  induction fuel with
  | zero => intro t t' i n h; simp [force] at h
  | succ fuel ih =>
    intro t t' i n h hw
    simp only [force] at h
    split at h
    · simp only [Option.some.injEq, Prod.mk.injEq] at h; obtain ⟨rfl, -⟩ := h; exact hw
    · simp only [Option.some.injEq, Prod.mk.injEq] at h; obtain ⟨rfl, -⟩ := h; exact hw
    · rename_i root name u he
      simp only [Option.map_eq_some_iff] at h
      obtain ⟨⟨t1, m⟩, hf, h⟩ := h
      simp only [Prod.mk.injEq] at h
      obtain ⟨rfl, -⟩ := h
      have hw1 := ih hf hw
      intro j r nm v hj
      simp only at hj ⊢
      by_cases hij : i = j
      · subst hij
        rw [List.getElem?_set, if_pos rfl] at hj
        split at hj <;> simp at hj
      · rw [List.getElem?_set_ne hij] at hj
        obtain ⟨h1, o, h2, h3⟩ := hw1 j r nm v hj
        refine ⟨h1, ?_⟩
        by_cases hir : i = r
        · subst hir
          rw [List.getElem?_set, if_pos rfl, if_pos (List.getElem?_eq_some_iff.1 h2).1]
          exact ⟨_, rfl, rfl⟩
        · rw [List.getElem?_set_ne hir]
          exact ⟨o, h2, h3⟩
    · simp at h

omit [DecidableEq V] in
theorem force_some (fuel : ℕ) : ∀ {t : T Op V σ} {i : ℕ} {o : Obj V}, WF t.env → t.env[i]? = some o → o.traced = true → i < fuel → ∃ r, force fuel t i = some r := by
  induction fuel with
  | zero => intro t i o _ _ _ h; omega
  | succ fuel ih =>
    intro t i o hw ho ht hi
    simp only [force, ho]
    cases o with
    | raw v => simp [Obj.traced] at ht
    | proxy n v => exact ⟨_, rfl⟩
    | attr root name v n =>
      cases n with
      | some n => exact ⟨_, rfl⟩
      | none =>
        obtain ⟨h1, o', h2, h3⟩ := hw i root name v ho
        obtain ⟨r, hr⟩ := ih hw h2 h3 (by omega)
        exact ⟨_, by simp only [hr, Option.map_some]; rfl⟩

omit [DecidableEq V] in
theorem lowerLeaf_some {l : Leaf V} (hw : WF t.env) (hl : ∀ i, l = .ref i → i < t.env.length) : ∃ r, lowerLeaf S t l = some r := by
  cases l with
  | const v => exact ⟨_, rfl⟩
  | ref i =>
    have hi := hl i rfl
    rcases ho : t.env[i]? with _ | o
    · rw [List.getElem?_eq_none_iff] at ho; omega
    · cases o with
      | raw v => exact ⟨_, by simp only [lowerLeaf, ho]; rfl⟩
      | proxy n v =>
        obtain ⟨r, hr⟩ := force_some (i + 1) hw ho rfl (by omega)
        exact ⟨_, by simp only [lowerLeaf, ho, hr, Option.map_some]; rfl⟩
      | attr root name v n =>
        obtain ⟨r, hr⟩ := force_some (i + 1) hw ho rfl (by omega)
        exact ⟨_, by simp only [lowerLeaf, ho, hr, Option.map_some]; rfl⟩

omit [DecidableEq V] in
theorem lowerLeaf_wf {l : Leaf V} {a : NodeArg V} (h : lowerLeaf S t l = some (t', a)) (hw : WF t.env) : WF t'.env := by
  have hraw : ∀ v, WF (lowerRaw S t v).1.env := fun v => by
    unfold lowerRaw
    by_cases hv : S.isTensor v = true
    · rw [if_pos hv]; exact hw
    · rw [if_neg hv]; exact hw
  cases l with
  | const v => simp only [lowerLeaf, Option.some.injEq] at h; have := hraw v; rw [h] at this; exact this
  | ref i =>
    simp only [lowerLeaf] at h
    split at h
    · rename_i v _
      simp only [Option.some.injEq] at h; have := hraw v; rw [h] at this; exact this
    · simp only [Option.map_eq_some_iff] at h
      obtain ⟨⟨t1, n⟩, hf, h⟩ := h
      simp only [Prod.mk.injEq] at h
      obtain ⟨rfl, -⟩ := h
      exact force_wf _ hf hw
    · simp at h

omit [DecidableEq V] in
theorem lowerAll_some (ls : List (Leaf V)) : ∀ {t : T Op V σ}, WF t.env → (∀ i, .ref i ∈ ls → i < t.env.length) → ∃ r, lowerAll S t ls = some r ∧ WF r.1.env := by
  induction ls with
  | nil => intro t hw _; exact ⟨_, rfl, hw⟩
  | cons l ls ih =>
    intro t hw hl
    obtain ⟨⟨t1, a⟩, h1⟩ := lowerLeaf_some (S := S) (l := l) hw (fun i hi => hl i (by rw [hi]; exact List.mem_cons_self))
    have hlen : t1.env.length = t.env.length := by simpa using congrArg List.length (lowerLeaf_same h1).1.env
    obtain ⟨⟨t2, as⟩, h2, hw2⟩ := ih (lowerLeaf_wf h1 hw) (fun i hi => by rw [hlen]; exact hl i (List.mem_cons_of_mem _ hi))
    exact ⟨(t2, a :: as), by simp only [lowerAll, h1, Option.bind_some, h2, Option.map_some], hw2⟩

omit [DecidableEq V] in
theorem mapM_value_lt {ls : List (Leaf V)} : ∀ {vs : List V}, ls.mapM (Leaf.value de) = some vs → ∀ i, .ref i ∈ ls → i < de.length := by
  induction ls with
  | nil => intro vs _ i hi; simp at hi
  | cons l ls ih =>
    intro vs h i hi
    rw [mapM_cons_iff] at h
    obtain ⟨b, bs, h1, h2, -⟩ := h
    rcases List.mem_cons.1 hi with hi | hi
    · subst hi; exact (List.getElem?_eq_some_iff.1 h1).1
    · exact ih h2 i hi

/-- The objects that are traced for sure are. -/
def Sure (tr : List Bool) (t : T Op V σ) : Prop := tr.length = t.env.length ∧ ∀ i : ℕ, tr[i]? = some true → ∃ v, (t.env.map Obj.view)[i]? = some (true, v)

omit [DecidableEq V] in
theorem Sure.same {tr : List Bool} (h : Sure tr t) (hs : Same t t') : Sure tr t' :=
  ⟨by have := congrArg List.length hs.env; simp only [List.length_map] at this; rw [this]; exact h.1, by rw [hs.env]; exact h.2⟩

omit [DecidableEq V] in
theorem Sure.push {tr : List Bool} (h : Sure tr t) {o : Obj V} {b : Bool} (hb : b = true → o.traced = true) : Sure (tr ++ [b]) (t.push o) := by
  refine ⟨by simp [T.push, h.1], fun i hi => ?_⟩
  simp only [T.push, List.map_append, List.map_cons, List.map_nil]
  rcases Nat.lt_or_ge i tr.length with hlt | hge
  · rw [List.getElem?_append_left hlt] at hi
    obtain ⟨v, hv⟩ := h.2 i hi
    exact ⟨v, by rw [List.getElem?_append_left (List.getElem?_eq_some_iff.1 hv).1, hv]⟩
  · rw [List.getElem?_append_right hge] at hi
    have hi0 : i - tr.length = 0 := by
      by_contra hne
      rw [List.getElem?_eq_none (by simp; omega)] at hi
      simp at hi
    rw [hi0] at hi
    simp only [List.getElem?_cons_zero, Option.some.injEq] at hi
    have : i = (t.env.map Obj.view).length := by simp only [List.length_map]; rw [← h.1]; omega
    rw [this]
    exact ⟨o.value, by simp [Obj.view, hb hi]⟩

omit [DecidableEq V] in
theorem Sure.traced {tr : List Bool} (h : Sure tr t) {i : ℕ} (hi : tr[i]? = some true) : Leaf.traced t.env (.ref i) = true := by
  obtain ⟨v, hv⟩ := h.2 i hi
  rw [List.getElem?_map, Option.map_eq_some_iff] at hv
  obtain ⟨o, ho, hov⟩ := hv
  simp only [Obj.view, Prod.mk.injEq] at hov
  simp [Leaf.traced, ho, hov.1]

/-- What is known of the tracer while the model runs on the traced values. -/
structure Good (S : Sem Op Q A V σ) (tr : List Bool) (t : T Op V σ) (de : List V) : Prop where
  val : Val S t de
  wf : WF t.env
  sure : Sure tr t

theorem createProxy_some {tr : List Bool} {c : Call Op V} {v : V} (h : Good S tr t de) {vs : List V} (hvs : c.args.mapM (Leaf.value de) = some vs) (hc : .namedTuple ∉ c.containers)
    (hv : v ≠ S.none) (b : Bool) : ∃ t', createProxy (A := A) S t c (some v) = some (t', .isNone false) ∧ Good S (tr ++ [b]) t' (de ++ [v]) ∧ t'.state = t.state := by
  obtain ⟨⟨t1, as⟩, h1, hw⟩ := lowerAll_some (S := S) c.args h.wf (fun i hi => by rw [h.val.length]; exact mapM_value_lt hvs i hi)
  have hca : createArg S t c.args c.containers = some (t1, as) := by unfold createArg; rw [if_neg hc]; exact h1
  have hsame := (createArg_same hca).1
  have hp : createProxy (A := A) S t c (some v) = some ((t1.emit (.call c.op as)).push (wrap S t1.nodes.length (some v)), .isNone false) := by
    simp only [createProxy, hca, Option.map_some]
    simp [hv]
  have hwr : wrap S t1.nodes.length (some v) = .proxy t1.nodes.length (some v) := by unfold wrap; rw [if_neg (by simpa using hv)]
  refine ⟨_, hp, ⟨(createProxy_val hp h.val).1, ?_, ?_⟩, (createProxy_val hp h.val).2.1⟩
  · rw [hwr]; exact WF.push (env := t1.env) hw (by simp)
  · rw [hwr]; exact Sure.push ((h.sure.same hsame).same (.emit _ _)) (by simp [Obj.traced])

omit [DecidableEq V] in
theorem Good.unpack {tr : List Bool} (h : Good S tr t de) {ls : List (Leaf V)} {vs : List V} (hvs : ls.mapM (Leaf.value de) = some vs) {cs : List Container} (hc : .range ∉ cs) :
    unpackArgs t.env ls cs = some (some vs) := by
  unfold unpackArgs
  rw [if_neg hc, h.val.leaves, hvs, Option.map_some, Option.map_some, mapM_id_some]

theorem record_some {tr : List Bool} {c : Call Op V} {v : V} {s' : σ} (h : Good S tr t de) {vs : List V} (hvs : c.args.mapM (Leaf.value de) = some vs) (hc : .range ∉ c.containers ∧ .namedTuple ∉ c.containers)
    (hr : S.run c.op vs t.state = some (v, s')) (hv : v ≠ S.none) (b : Bool) : ∃ t', record (A := A) S t c = some (t', .isNone false) ∧ Good S (tr ++ [b]) t' (de ++ [v]) ∧ t'.state = s' := by
  obtain ⟨t', h1, h2, h3⟩ := createProxy_some (A := A) (t := { t with state := s' }) ⟨h.val.setState s', h.wf, h.sure⟩ hvs hc.2 hv b
  exact ⟨t', by simp only [record, h.unpack hvs hc.1, hr, Option.bind_some, h1], h2, h3⟩

theorem plain_some {tr : List Bool} {c : Call Op V} {v : V} {s' : σ} (h : Good S tr t de) {vs : List V} (hvs : c.args.mapM (Leaf.value de) = some vs)
    (hr : S.run (c.directOp S) vs t.state = some (v, s')) (hv : v ≠ S.none) :
    ∃ t', plain (A := A) S t c = some (t', .isNone false, [(c.directOp S, vs)]) ∧ Good S (tr ++ [false]) t' (de ++ [v]) ∧ t'.state = s' := by
  refine ⟨{ t with state := s' }.push (.raw v), by simp [plain, h.unpack hvs (cs := []) (by simp), hr, hv], ⟨(h.val.setState s').push rfl (by simp [Obj.traced]), h.wf.push (by simp), ?_⟩, rfl⟩
  exact Sure.push (t := { t with state := s' }) h.sure (by simp)

theorem call_some {frames : ℕ} {tr : List Bool} {c : Call Op V} {v : V} {s' : σ} (h : Good S tr t de) (hc : c.Traceable S tr) (haug : PlainAugmented S c) {vs : List V}
    (hvs : c.args.mapM (Leaf.value de) = some vs) (hr : S.run (c.directOp S) vs t.state = some (v, s')) (hv : v ≠ S.none) :
    ∃ t' un, call (A := A) S frames t c = some (t', .isNone false, un) ∧ Good S (tr ++ [c.sure tr]) t' (de ++ [v]) ∧ t'.state = s' := by
  obtain ⟨hk1, hk2, hc1, hc2, hbound⟩ := hc
  have hplainRun : S.run c.op vs t.state = some (v, s') := by
    unfold Call.directOp at hr
    split at hr
    · rename_i hk; rw [← haug hk]; exact hr
    · exact hr
  have hrec : ∃ t', record (A := A) S t c = some (t', .isNone false) ∧ Good S (tr ++ [c.sure tr]) t' (de ++ [v]) ∧ t'.state = s' := record_some h hvs ⟨hc1, hc2⟩ hplainRun hv _
  -- whatever is traced for sure is seen
  have hsure : (∀ b, c.kind ≠ .leaf b) → c.args.any (Leaf.traced t.env) = false → c.sure tr = false := by
    intro hnl hany
    have : c.args.any (fun l => match l with
        | .ref i => tr[i]? == some true
        | .const _ => false) = false := by
      rw [List.any_eq_false] at hany ⊢
      intro l hl hb
      cases l with
      | const v => simp at hb
      | ref i => exact hany _ hl (h.sure.traced (by simpa using hb))
    unfold Call.sure
    split
    · rename_i b hk; exact (hnl b hk).elim
    · exact this
  have hfn : (∀ b, c.kind ≠ .leaf b) → ∃ t' un, (if c.args.any (Leaf.traced t.env) then recorded (record (A := A) S t c) else plain S t c) = some (t', .isNone false, un) ∧
      Good S (tr ++ [c.sure tr]) t' (de ++ [v]) ∧ t'.state = s' := by
    intro hnl
    by_cases hany : c.args.any (Leaf.traced t.env) = true
    · obtain ⟨t', h1, h2⟩ := hrec
      exact ⟨t', [], by rw [if_pos hany, h1]; rfl, h2⟩
    · obtain ⟨t', h1, h2⟩ := plain_some (A := A) h hvs hr hv
      exact ⟨t', _, by rw [if_neg hany]; exact h1, by rw [hsure hnl (by simpa using hany)]; exact h2⟩
  have hbd : ∀ b, (b = true ↔ c.kind = .method) → (c.kind = .operator ∨ c.kind = .augmented ∨ c.kind = .method) →
      ∃ t' un, callBound (A := A) S t c b = some (t', .isNone false, un) ∧ Good S (tr ++ [c.sure tr]) t' (de ++ [v]) ∧ t'.state = s' := by
    intro b hb hk
    obtain ⟨t', h1, h2⟩ := hrec
    rcases hbound hk with ⟨i, rest, ha, hi⟩ | ⟨hnm, w, rest, ha, hw⟩
    · refine ⟨t', [], ?_, h2⟩
      simp only [callBound, ha, h.sure.traced hi, if_true]
      rw [h1]; rfl
    · have hnl : ∀ b, c.kind ≠ .leaf b := by rintro b hb'; rw [hb'] at hk; simp at hk
      have hbf : b = false := by
        cases b with
        | false => rfl
        | true => exact (hnm (hb.1 rfl)).elim
      subst hbf
      by_cases hany : c.args.any (Leaf.traced t.env) = true
      · refine ⟨t', [], ?_, h2⟩
        have hany' := hany
        rw [ha] at hany'
        unfold callBound
        simp only [ha]
        rw [if_neg (by simp [Leaf.traced]), if_pos hany']
        simp only [Leaf.traceValue, reflected, hw, h1, Bool.false_eq_true, if_false]
        rfl
      · obtain ⟨t'', h3, h4⟩ := plain_some (A := A) h hvs hr hv
        refine ⟨t'', [(c.directOp S, vs)], ?_, by rw [hsure hnl (by simpa using hany)]; exact h4⟩
        have hany' := hany
        rw [ha] at hany'
        unfold callBound
        simp only [ha]
        rw [if_neg (by simp [Leaf.traced]), if_neg hany']
        exact h3
  unfold call
  split
  · rename_i hk; exact hfn (by rw [hk]; simp)
  · rename_i d hk
    cases d with
    | false => exact (hk2 hk).elim
    | true => simp only [if_true]; exact hfn (by rw [hk]; simp)
  · rename_i name hk
    by_cases hany : c.args.any (Leaf.traced t.env) = true
    · rw [if_pos hany]
      obtain ⟨t', h1, h2⟩ := record_some (A := A) (t := { t with seen := name :: t.seen }) ⟨⟨h.val.eq, h.val.none⟩, h.wf, h.sure⟩ hvs ⟨hc1, hc2⟩ hplainRun hv (c.sure tr)
      exact ⟨t', [], by rw [h1]; rfl, h2⟩
    · rw [if_neg hany]
      by_cases hs : name ∈ t.seen
      · rw [if_pos hs]
        obtain ⟨t', h1, h2⟩ := hrec
        exact ⟨t', [], by rw [h1]; rfl, h2⟩
      · rw [if_neg hs]
        obtain ⟨t', h1, h2⟩ := plain_some (A := A) h hvs hr hv
        exact ⟨t', _, h1, by rw [hsure (by rw [hk]; simp) (by simpa using hany)]; exact h2⟩
  · rename_i hk; exact hbd false (by rw [hk]; simp) (.inl hk)
  · rename_i hk; exact hbd false (by rw [hk]; simp) (.inr (.inl hk))
  · rename_i hk; exact hbd true (by rw [hk]; simp) (.inr (.inr hk))
  · rename_i sub hk
    cases sub with
    | true => exact (hk1 hk).elim
    | false =>
      obtain ⟨t', h1, h2, h3⟩ := createProxy_some (A := A) (t := { t with state := s' }) ⟨h.val.setState s', h.wf, h.sure⟩ hvs hc2 hv (c.sure tr)
      refine ⟨t', [], ?_, h2, h3⟩
      simp only [callLeaf, h.unpack hvs hc1, Bool.false_eq_true, if_false, hplainRun, Option.bind_some, h1]
      rfl

theorem getattr_some {tr : List Bool} {name : String} {i : ℕ} {v w : V} (h : Good S tr t de) (hi : de[i]? = some v) (hw : S.getattr name v t.state = some w) (hn : w ≠ S.none) :
    ∃ t', getattr (A := A) S t name i = some (t', .isNone false) ∧ Good S (tr ++ [tr[i]? == some true]) t' (de ++ [w]) ∧ t'.state = t.state := by
  have hlt : i < t.env.length := by rw [h.val.length]; exact (List.getElem?_eq_some_iff.1 hi).1
  rcases ho : t.env[i]? with _ | o
  · rw [List.getElem?_eq_none_iff] at ho; omega
  · obtain ⟨v', h1, h2, -⟩ := h.val.get ho
    rw [hi] at h1
    obtain rfl := Option.some.inj h1
    by_cases ht : o.traced = true
    · have hg : getattr (A := A) S t name i = some (t.push (.attr i name (some w) none), .isNone false) := by
        unfold getattr
        rw [ho]
        cases o with
        | raw u => simp [Obj.traced] at ht
        | proxy n u => simp only [h2, hw, Option.map_some, if_neg hn]; simp [hn]
        | attr r nm u n => simp only [h2, hw, Option.map_some, if_neg hn]; simp [hn]
      refine ⟨_, hg, ⟨h.val.push rfl fun _ => hn, h.wf.push fun root nm u he => ?_, h.sure.push fun _ => rfl⟩, rfl⟩
      simp only [Obj.attr.injEq] at he
      obtain ⟨rfl, -⟩ := he
      exact ⟨o, ho, ht⟩
    · cases o with
      | proxy n u => simp [Obj.traced] at ht
      | attr r nm u n => simp [Obj.traced] at ht
      | raw u =>
        obtain rfl := Option.some.inj h2
        have hg : getattr (A := A) S t name i = some (t.push (.raw w), .isNone false) := by
          unfold getattr
          rw [ho]
          simp [hw, hn]
        refine ⟨_, hg, ⟨h.val.push rfl (by simp [Obj.traced]), h.wf.push (by simp), h.sure.push fun hb => ?_⟩, rfl⟩
        exfalso
        obtain ⟨v', hv'⟩ := h.sure.2 i (by simpa using hb)
        rw [List.getElem?_map, ho] at hv'
        simp [Obj.view, Obj.traced] at hv'

theorem param_some {tr : List Bool} (h : Good S tr t de) {name : String} (hn : S.attr name ≠ S.none) : Good S (tr ++ [true]) (param S t name) (de ++ [S.attr name]) := by
  refine ⟨(param_val h.val name).1, ?_, ?_⟩
  · unfold param
    rw [if_neg hn]
    split
    · exact h.wf.push (by simp)
    · exact WF.push (env := t.env) h.wf (by simp)
  · unfold param
    rw [if_neg hn]
    split
    · exact h.sure.push fun _ => rfl
    · exact Sure.push (t := { t.emit (.getAttr (S.attr name)) with cache := (name, t.nodes.length) :: t.cache }) h.sure fun _ => rfl

/-- Code that can be traced is, if the model runs on the values and gives no `None` on the way. -/
theorem trace_some (frames : ℕ) (p : Prog Op Q A V) : ∀ {t : T Op V σ} {tr : List Bool} {de out : List V} {s' : σ} {path : List (Event A)}, exec S p de t.state = some (out, s', path) → Good S tr t de →
    p.Traceable S tr → p.Calls (PlainAugmented S) → .isNone true ∉ path → ∃ r, trace S frames p t = some r := by
  induction p with
  | ret l cs =>
    intro t tr de out s' path hx h hp _ _
    simp only [exec, Option.map_eq_some_iff, Prod.mk.injEq] at hx
    obtain ⟨vs, hvs, -⟩ := hx
    obtain ⟨r, hr, -⟩ := lowerAll_some (S := S) l h.wf (fun i hi => by rw [h.val.length]; exact mapM_value_lt hvs i hi)
    have hca : createArg S t l cs = some r := by unfold createArg; rw [if_neg hp]; exact hr
    exact ⟨_, by simp only [trace, hca, Option.map_some]; rfl⟩
  | call c next ih =>
    intro t tr de out s' path hx h hp hc hn
    simp only [exec, Option.bind_eq_some_iff, Option.map_eq_some_iff, Prod.mk.injEq] at hx
    obtain ⟨vs, hvs, ⟨v, s1⟩, hrun, ⟨out2, s2, path3⟩, hx2, rfl, rfl, rfl⟩ := hx
    simp only [List.mem_cons, not_or] at hn
    have hv : v ≠ S.none := fun hv => hn.1 (by simp [hv])
    obtain ⟨t1, un, h1, h2, h3⟩ := call_some (A := A) (frames := frames) h hp.1 hc.1 hvs hrun hv
    simp only at hx2
    rw [← h3] at hx2
    obtain ⟨r, hr⟩ := ih hx2 h2 hp.2 hc.2 hn.2
    exact ⟨_, by simp only [trace, h1, Option.bind_some, hr, Option.map_some]; rfl⟩
  | getattr name i next ih =>
    intro t tr de out s' path hx h hp hc hn
    simp only [exec, Option.bind_eq_some_iff, Option.map_eq_some_iff, Prod.mk.injEq] at hx
    obtain ⟨v, hv, w, hw, ⟨out2, s2, path3⟩, hx2, rfl, rfl, rfl⟩ := hx
    simp only [List.mem_cons, not_or] at hn
    have hwn : w ≠ S.none := fun hv => hn.1 (by simp [hv])
    obtain ⟨t1, h1, h2, h3⟩ := getattr_some (A := A) h hv hw hwn
    rw [← h3] at hx2
    obtain ⟨r, hr⟩ := ih hx2 h2 hp hc hn.2
    exact ⟨_, by simp only [trace, h1, Option.bind_some, hr, Option.map_some]; rfl⟩
  | param name next ih =>
    intro t tr de out s' path hx h hp hc hn
    simp only [exec] at hx
    rw [← (param_val h.val name).2] at hx
    obtain ⟨r, hr⟩ := ih hx (param_some h hp.1) hp.2 hc hn
    exact ⟨r, hr⟩
  | buffer name next ih =>
    intro t tr de out s' path hx h hp hc hn
    simp only [exec] at hx
    obtain ⟨r, hr⟩ := ih (t := t.push (.raw (S.attr name))) hx ⟨h.val.push rfl (by simp [Obj.traced]), h.wf.push (by simp), h.sure.push (by simp)⟩ hp hc hn
    exact ⟨r, hr⟩
  | ask q i next ih =>
    intro t tr de out s' path hx h hp hc hn
    simp only [exec, Option.bind_eq_some_iff, Option.map_eq_some_iff, Prod.mk.injEq] at hx
    obtain ⟨v, hv, a, ha, ⟨out2, s2, path3⟩, hx2, rfl, rfl, rfl⟩ := hx
    have hlt : i < t.env.length := by rw [h.val.length]; exact (List.getElem?_eq_some_iff.1 hv).1
    obtain ⟨o, ho⟩ : ∃ o, t.env[i]? = some o := ⟨_, List.getElem?_eq_getElem hlt⟩
    obtain ⟨v', h1, h2, -⟩ := h.val.get ho
    rw [hv] at h1
    obtain rfl := Option.some.inj h1
    obtain ⟨r, hr⟩ := ih a hx2 h (hp a) (hc a) (fun hm => hn (List.mem_cons_of_mem _ hm))
    exact ⟨_, by simp only [trace, ho, Option.bind_some, h2, ha, hr, Option.map_some]; rfl⟩
  | ifNone i next ih =>
    intro t tr de out s' path hx h hp hc hn
    simp only [exec, Option.bind_eq_some_iff] at hx
    obtain ⟨v, hv, hx⟩ := hx
    have hlt : i < t.env.length := by rw [h.val.length]; exact (List.getElem?_eq_some_iff.1 hv).1
    obtain ⟨o, ho⟩ : ∃ o, t.env[i]? = some o := ⟨_, List.getElem?_eq_getElem hlt⟩
    obtain ⟨v', h1, h2, h3⟩ := h.val.get ho
    rw [hv] at h1
    obtain rfl := Option.some.inj h1
    simp only [trace, ho, Option.bind_some]
    cases o with
    | raw w => obtain rfl := Option.some.inj h2; exact ih _ hx h (hp _) (hc _) hn
    | proxy n u => rw [decide_eq_false (h3 rfl)] at hx; exact ih _ hx h (hp _) (hc _) hn
    | attr r nm u n => rw [decide_eq_false (h3 rfl)] at hx; exact ih _ hx h (hp _) (hc _) hn

theorem placeholder_good {values : List (String × V)} {tr : List Bool} (h : Good S tr t de) (p : Param V) {v : V} (hp : p.value values = some v) :
    Good S (tr ++ [decide (v ≠ S.none)]) (placeholder (A := A) S values t p).1 (de ++ [v]) := by
  refine ⟨(placeholder_val h.val p hp).1, ?_, ?_⟩
  · have hwr : ∀ n o root name u, wrap S n o ≠ .attr root name u none := by
      intro n o root name u; unfold wrap; split <;> simp
    unfold placeholder
    split
    · exact WF.push (env := t.env) h.wf fun root name u he => (hwr _ _ _ _ _ he).elim
    · exact WF.push (env := t.env) h.wf fun root name u he => (hwr _ _ _ _ _ he).elim
    · split
      · exact h.wf.push (by simp)
      · exact WF.push (env := t.env) h.wf fun root name u he => (hwr _ _ _ _ _ he).elim
  · have hwr : ∀ n w, w ≠ S.none → (wrap S n (some w)).traced = true := by
      intro n w hw; unfold wrap; rw [if_neg (by simpa using hw)]; rfl
    simp only [Param.value] at hp
    unfold placeholder
    split
    · rename_i w _ hl
      rw [hl] at hp
      obtain rfl := Option.some.inj hp
      exact Sure.push (h.sure.same (.emit _ _)) fun hb => hwr _ _ (by simpa using hb)
    · rename_i hl hd
      rw [hl, hd] at hp
      simp at hp
    · rename_i d hl hd
      rw [hl, hd] at hp
      obtain rfl := Option.some.inj hp
      split
      · rename_i hn
        exact h.sure.push fun hb => by simp [hn] at hb
      · exact Sure.push (h.sure.same (.emit _ _)) fun hb => hwr _ _ (by simpa using hb)

theorem placeholders_good {values : List (String × V)} (sig : List (Param V)) : ∀ {t : T Op V σ} {tr : List Bool} {de vs : List V}, Good S tr t de → sig.mapM (Param.value values) = some vs →
    Good S (tr ++ vs.map fun v => decide (v ≠ S.none)) (placeholders (A := A) S values sig t).1 (de ++ vs) := by
  induction sig with
  | nil =>
    intro t tr de vs h hvs
    simp only [List.mapM_nil, Option.pure_def, Option.some.injEq] at hvs
    subst hvs
    simpa [placeholders] using h
  | cons p sig ih =>
    intro t tr de vs h hvs
    rw [mapM_cons_iff] at hvs
    obtain ⟨v, vs', hp, hvs', rfl⟩ := hvs
    have := ih (placeholder_good (A := A) h p hp) hvs'
    simp only [placeholders]
    simpa using this

end ValueTrace

end Brevitas
