import Verif.Props.Export
import Verif.Model.Cache
import Verif.Spec.Cache

/-!
# C53: caching of quantised weights
-/

set_option linter.unusedSectionVars false

namespace Brevitas.Props

open Brevitas Spec

variable {W V M : Type*}

/-- How an operation on a weight proxy looks to the caller. -/
def CacheOp.event : CacheOp W → WeightEvent W
  | .setWeight w => .weight w
  | .setEnabled b => .enable b
  | .call => .call
  | _ => .other

/-- Histories in which the weight is not changed, and quantisation not re-enabled, behind the back of a cache: every weight update happens
outside export mode and at a time when no value can be cached, that is no call was made with full caching on since caching was last switched
off; and quantisation is not re-enabled inside export mode. The three flags are: caching on, metadata only, a value may be cached; the fourth
is export mode. -/
def CoherentHistory : Bool → Bool → Bool → Bool → List (CacheOp W) → Prop
  | _, _, _, _, [] => True
  | c, m, f, x, .train _ :: ops => CoherentHistory c m f x ops
  | c, m, f, x, .setEnabled b :: ops => (x = true → b = false) ∧ CoherentHistory c m f x ops
  | _, m, f, x, .setCache b :: ops => CoherentHistory b m (if b then f else false) x ops
  | c, _, f, x, .setMetadataOnly b :: ops => CoherentHistory c b f x ops
  | c, m, f, x, .setWeight _ :: ops => f = false ∧ x = false ∧ CoherentHistory c m f x ops
  | c, m, f, _, .setExport b :: ops => CoherentHistory c m (f || b && c && !m) b ops
  | c, m, f, x, .call :: ops => CoherentHistory c m (f || c && !m) x ops

/-- The invariant: whatever is cached was computed from the current weight. -/
private structure CacheInv (q : WeightQuantizer W V M) (p : WeightProxy W V M) (c m f x : Bool) : Prop where
  on : p.cacheOn = c
  meta_ : p.metadataOnly = m
  exp : p.exporting.isSome = x
  val : ∀ v mm, p.cached = some (some v, mm) → f = true ∧ v = (q.quant p.weight).1
  handler : ∀ h, p.exporting = some (some h) → h.2 = (q.quant p.weight).2 ∧ ∀ v, h.1 = some v → v = (q.quant p.weight).1

private theorem forward_inv {q : WeightQuantizer W V M} (hq : ∀ w, q.requant (q.quant w).2 w = (q.quant w).1)
    {p : WeightProxy W V M} {c m f x : Bool} (h : CacheInv q p c m f x) {r} (hr : p.forward q = some r) :
    CacheInv q r.1 c m (f || c && !m) x ∧ r.1.weight = p.weight ∧ r.1.enabled = p.enabled ∧ r.1.training = p.training ∧
      r.1.exporting = p.exporting ∧
      r.2 = if p.enabled then ((q.quant p.weight).1, some (q.quant p.weight).2) else (q.view p.weight, none) := by
  obtain ⟨w, tr, en, co, mo, ca, ex⟩ := p
  obtain ⟨h1, h2, h3, h4, h5⟩ := h
  simp only at h1 h2 h3 h4 h5
  subst h1 h2 h3
  unfold WeightProxy.forward at hr
  cases en with
  | false =>
    simp only [Bool.false_eq_true, if_false, Option.some.injEq] at hr
    subst hr
    refine ⟨⟨rfl, rfl, rfl, fun v mm hv => ?_, h5⟩, rfl, rfl, rfl, rfl, by simp⟩
    obtain ⟨a, b⟩ := h4 v mm hv
    exact ⟨by simp [a], b⟩
  | true =>
    simp only [if_true] at hr
    rcases ex with _ | _ | ⟨_ | v, mm⟩
    · simp only [Option.some.injEq] at hr
      subst hr
      refine ⟨⟨rfl, rfl, rfl, fun v mm hv => ?_, fun h hh => by simp at hh⟩, rfl, rfl, rfl, rfl, by simp⟩
      simp only at hv
      by_cases hc : (!tr && co && ca.isNone) = true
      · rw [if_pos hc] at hv
        simp only [Bool.and_eq_true] at hc
        cases mo with
        | true => simp at hv
        | false =>
          simp only [Bool.false_eq_true, if_false, Option.some.injEq, Prod.mk.injEq] at hv
          exact ⟨by simp [hc.1.2], hv.1.symm⟩
      · rw [if_neg hc] at hv
        obtain ⟨a, b⟩ := h4 v mm hv
        exact ⟨by simp [a], b⟩
    · simp at hr
    · simp only [Option.some.injEq] at hr
      subst hr
      obtain ⟨a, _⟩ := h5 _ rfl
      simp only at a
      refine ⟨⟨rfl, rfl, rfl, fun v mm hv => ?_, h5⟩, rfl, rfl, rfl, rfl, by simp [a, hq]⟩
      obtain ⟨a, b⟩ := h4 v mm hv
      exact ⟨by simp [a], b⟩
    · simp only [Option.some.injEq] at hr
      subst hr
      obtain ⟨a, b⟩ := h5 _ rfl
      simp only at a
      refine ⟨⟨rfl, rfl, rfl, fun v mm hv => ?_, h5⟩, rfl, rfl, rfl, rfl, by simp [a, b v rfl]⟩
      obtain ⟨a, b⟩ := h4 v mm hv
      exact ⟨by simp [a], b⟩

private theorem run_inv {q : WeightQuantizer W V M} (hq : ∀ w, q.requant (q.quant w).2 w = (q.quant w).1)
    (ops : List (CacheOp W)) : ∀ (p : WeightProxy W V M) (c m f x : Bool), CacheInv q p c m f x → CoherentHistory c m f x ops →
    ∀ p' outs, p.run q ops = some (p', outs) → outs = fromScratch q.quant q.view p.weight p.enabled (ops.map CacheOp.event) := by
  induction ops with
  | nil => intro p c m f x _ _ p' outs hr; simp [WeightProxy.run] at hr; simp [fromScratch, ← hr.2]
  | cons op ops ih =>
    intro p c m f x hi hc p' outs hr
    simp only [WeightProxy.run] at hr
    obtain ⟨⟨p1, out⟩, h1, hr⟩ := Option.bind_eq_some_iff.mp hr
    obtain ⟨⟨p2, outs2⟩, h2, hr⟩ := Option.map_eq_some_iff.mp hr
    simp only [Prod.mk.injEq] at hr
    obtain ⟨rfl, rfl⟩ := hr
    cases op with
    | train b =>
      simp only [WeightProxy.step, Option.some.injEq, Prod.mk.injEq] at h1
      obtain ⟨rfl, rfl⟩ := h1
      have := ih { p with training := b } c m f x ⟨hi.on, hi.meta_, hi.exp, hi.val, hi.handler⟩ hc _ _ h2
      simpa [CacheOp.event, fromScratch] using this
    | setEnabled b =>
      simp only [WeightProxy.step, Option.some.injEq, Prod.mk.injEq] at h1
      obtain ⟨rfl, rfl⟩ := h1
      have := ih { p with enabled := b } c m f x ⟨hi.on, hi.meta_, hi.exp, hi.val, hi.handler⟩ hc.2 _ _ h2
      simpa [CacheOp.event, fromScratch] using this
    | setCache b =>
      simp only [WeightProxy.step, Option.some.injEq, Prod.mk.injEq] at h1
      obtain ⟨rfl, rfl⟩ := h1
      have := ih { p with cached := if !b then none else p.cached, cacheOn := b } b m (if b then f else false) x ⟨rfl, hi.meta_, hi.exp, fun v mm hv => ?_, hi.handler⟩ hc _ _ h2
      · simpa [CacheOp.event, fromScratch] using this
      · cases b with
        | false => simp at hv
        | true => simpa using hi.val v mm (by simpa using hv)
    | setMetadataOnly b =>
      simp only [WeightProxy.step, Option.some.injEq, Prod.mk.injEq] at h1
      obtain ⟨rfl, rfl⟩ := h1
      have := ih { p with metadataOnly := b } c b f x ⟨hi.on, rfl, hi.exp, hi.val, hi.handler⟩ hc _ _ h2
      simpa [CacheOp.event, fromScratch] using this
    | setWeight w =>
      simp only [WeightProxy.step, Option.some.injEq, Prod.mk.injEq] at h1
      obtain ⟨rfl, rfl⟩ := h1
      obtain ⟨hf, hx, hc⟩ := hc
      subst hf hx
      have := ih { p with weight := w } c m false false
        ⟨hi.on, hi.meta_, hi.exp, fun v mm hv => by simpa using (hi.val v mm hv).1, fun h hh => by
          have := hi.exp; simp only at hh; rw [hh] at this; simp at this⟩ hc _ _ h2
      simpa [CacheOp.event, fromScratch] using this
    | setExport b =>
      simp only [WeightProxy.step, Option.map_eq_some_iff] at h1
      obtain ⟨p1', h1, he⟩ := h1
      simp only [Prod.mk.injEq] at he
      obtain ⟨rfl, rfl⟩ := he
      have key : CacheInv q p1' c m (f || b && c && !m) b ∧ p1'.weight = p.weight ∧ p1'.enabled = p.enabled := by
        cases b with
        | false =>
          simp only [WeightProxy.setExport, Bool.false_eq_true, if_false, Option.some.injEq] at h1
          subst h1
          exact ⟨⟨hi.on, hi.meta_, rfl, by simpa using hi.val, by simp⟩, rfl, rfl⟩
        | true =>
          simp only [WeightProxy.setExport, if_true] at h1
          by_cases ht : p.training = true
          · simp [ht] at h1
          · rw [if_neg ht] at h1
            by_cases hx : p.exporting.isSome = true
            · rw [if_pos hx, Option.some.injEq] at h1
              subst h1
              refine ⟨⟨hi.on, hi.meta_, hx, fun v mm hv => ?_, hi.handler⟩, rfl, rfl⟩
              obtain ⟨a, b⟩ := hi.val v mm hv
              exact ⟨by simp [a], b⟩
            · rw [if_neg hx] at h1
              by_cases hen : p.enabled = true
              · rw [if_pos hen] at h1
                obtain ⟨⟨p3, v3, m3⟩, hf, h1⟩ := Option.bind_eq_some_iff.mp h1
                obtain ⟨m4, hm4, h1⟩ := Option.map_eq_some_iff.mp h1
                obtain ⟨j1, j2, j3, _, _, j6⟩ := forward_inv hq hi hf
                simp only at hm4 j1 j2 j3 j6
                rw [hen, if_pos rfl, Prod.mk.injEq, hm4] at j6
                simp only [Option.some.injEq] at j6
                subst h1
                refine ⟨⟨j1.on, j1.meta_, rfl, by simpa using j1.val, fun h hh => ?_⟩, j2, j3⟩
                simp only [Option.some.injEq] at hh
                subst hh
                refine ⟨by rw [j2]; exact j6.2, fun v hv => ?_⟩
                simp only at hv ⊢
                rcases hcc : p3.cached with _ | ⟨_ | v', mm'⟩
                · rw [hcc] at hv; simp at hv
                · rw [hcc] at hv; simp at hv
                · rw [hcc] at hv
                  simp only at hv
                  split_ifs at hv
                  rw [Option.some.injEq] at hv
                  subst hv
                  exact (j1.val _ _ hcc).2
              · rw [if_neg hen, Option.some.injEq] at h1
                subst h1
                refine ⟨⟨hi.on, hi.meta_, rfl, fun v mm hv => ?_, by simp⟩, rfl, rfl⟩
                obtain ⟨a, b⟩ := hi.val v mm hv
                exact ⟨by simp [a], b⟩
      obtain ⟨k1, k2, k3⟩ := key
      have := ih p1' c m _ b k1 hc _ _ h2
      simpa [CacheOp.event, fromScratch, k2, k3] using this
    | call =>
      simp only [WeightProxy.step, Option.map_eq_some_iff] at h1
      obtain ⟨r, h1, he⟩ := h1
      simp only [Prod.mk.injEq] at he
      obtain ⟨rfl, rfl⟩ := he
      obtain ⟨j1, j2, j3, _, _, j6⟩ := forward_inv hq hi h1
      have := ih r.1 c m _ x j1 hc _ _ h2
      simp only [CacheOp.event, List.map_cons, fromScratch, Option.toList_some, List.singleton_append, List.cons.injEq]
      exact ⟨j6, by rw [this, j2, j3]⟩

/-- C53, partial: over every history of mode switches, cache settings, export sessions, calls and weight updates, every call returns what a
proxy without cache would return, provided weights are updated outside export mode and while no value is cached (`CoherentHistory`).
Missing: other histories, where stale values are served (`C53_stale_after_update`). The hypothesis on `requant` says that quantising a
weight with its own scale reproduces the quantised weight; see `C53_int_requant`. -/
theorem C53_transparent_partial (q : WeightQuantizer W V M) (hq : ∀ w, q.requant (q.quant w).2 w = (q.quant w).1) (w : W)
    (ops : List (CacheOp W)) (hc : CoherentHistory false false false false ops) (p' : WeightProxy W V M) (outs : List (V × Option M))
    (hr : (WeightProxy.init w).run q ops = some (p', outs)) :
    outs = fromScratch q.quant q.view w true (ops.map CacheOp.event) :=
  run_inv hq ops _ _ _ _ _ ⟨rfl, rfl, rfl, by simp [WeightProxy.init], by simp [WeightProxy.init]⟩ hc p' outs hr

/-- C53: outside export mode no call is ever answered from the cache, in training or evaluation mode and whatever the cache contains. -/
theorem C53_never_cached_outside_export (q : WeightQuantizer W V M) (p : WeightProxy W V M) (hx : p.exporting = none)
    (he : p.enabled = true) : ∃ p', p.forward q = some (p', (q.quant p.weight).1, some (q.quant p.weight).2) := by
  unfold WeightProxy.forward
  rw [if_pos he, hx]
  exact ⟨_, rfl⟩

/-- C53: in training mode nothing is cached, and export mode cannot be entered. -/
theorem C53_training (q : WeightQuantizer W V M) (p : WeightProxy W V M) (ht : p.training = true) :
    (∀ p' r, p.forward q = some (p', r) → p'.cached = p.cached) ∧ p.setExport q true = none := by
  constructor
  · intro p' r h
    unfold WeightProxy.forward at h
    rw [ht] at h
    simp only [Bool.not_true, Bool.false_and, Bool.false_eq_true, if_false] at h
    split_ifs at h
    · split at h <;> simp only [Option.some.injEq, Prod.mk.injEq, reduceCtorEq] at h <;> rw [← h.1]
    · simp only [Option.some.injEq, Prod.mk.injEq] at h; rw [← h.1]
  · simp [WeightProxy.setExport, ht]

/-- C53: switching caching off forgets the cached weight. -/
theorem C53_disabling_clears (q : WeightQuantizer W V M) (p p' : WeightProxy W V M) (out) (h : p.step q (.setCache false) = some (p', out)) :
    p'.cached = none ∧ p'.cacheOn = false := by
  simp only [WeightProxy.step, Option.some.injEq, Prod.mk.injEq] at h
  rw [← h.1]; simp

/-- Any number of sessions of inference mode, with or without weight caching, each followed by an update of the weight. -/
def sessions (ss : List (Bool × ℕ × W)) : List (CacheOp W) :=
  ss.flatMap fun s => inferenceSession s.1 s.2.1 ++ [.setWeight s.2.2]

private theorem coherent_calls (c m f x : Bool) (n : ℕ) (rest : List (CacheOp W))
    (h : CoherentHistory c m (f || c && !m) x rest) (h0 : CoherentHistory c m f x rest) :
    CoherentHistory c m f x (List.replicate n .call ++ rest) := by
  induction n generalizing f with
  | zero => simpa using h0
  | succ n ih =>
    simp only [List.replicate_succ, List.cons_append, CoherentHistory]
    exact ih _ (by simpa [Bool.or_assoc] using h) h

private theorem coherent_sessions (ss : List (Bool × ℕ × W)) : ∀ c m, CoherentHistory c m false false (sessions ss) := by
  induction ss with
  | nil => intro c m; trivial
  | cons s ss ih =>
    obtain ⟨cw, n, w⟩ := s
    intro c m
    have e : sessions ((cw, n, w) :: ss) = inferenceSession cw n ++ [.setWeight w] ++ sessions ss := by simp [sessions]
    rw [e]
    cases cw with
    | true =>
      simp only [inferenceSession, Bool.not_true, if_true, List.append_assoc, List.cons_append, List.nil_append, CoherentHistory]
      apply coherent_calls <;> simp [CoherentHistory, ih]
    | false =>
      simp only [inferenceSession, Bool.not_false, Bool.false_eq_true, if_false, List.append_assoc, List.cons_append, List.nil_append,
        CoherentHistory]
      apply coherent_calls <;> simp [CoherentHistory, ih]

/-- C53: inference mode. Over any number of sessions, with or without weight caching, with the weight updated between them, every forward
pass uses the quantised current weight. -/
theorem C53_inference_sessions (q : WeightQuantizer W V M) (hq : ∀ w, q.requant (q.quant w).2 w = (q.quant w).1) (w : W)
    (ss : List (Bool × ℕ × W)) (p' : WeightProxy W V M) (outs : List (V × Option M))
    (hr : (WeightProxy.init w).run q (.train false :: sessions ss) = some (p', outs)) :
    outs = fromScratch q.quant q.view w true (.other :: (sessions ss).map CacheOp.event) :=
  C53_transparent_partial q hq w (.train false :: sessions ss) (coherent_sessions ss false false) p' outs hr

/-- The 8-bit per-tensor quantiser of one-element weights with scale one, used in the examples. -/
def toyQuantizer : WeightQuantizer ℚ ℚ Unit :=
  ⟨fun w => ((⟨true, false, torchRound⟩ : IntQuantCfg ℚ).forward 1 0 8 w, ()), fun _ w => inferenceHandler false true 8 1 0 w, id⟩

example : ((WeightProxy.init (7/10 : ℚ)).run toyQuantizer (.train false :: sessions [(true, 2, 18/10), (false, 1, 0)])).map (·.2) =
    some [(1, some ()), (1, some ()), (1, some ()), (2, some ()), (2, some ())] := by decide +kernel

/-- C53 fails when the weight is updated while a value is cached: inference mode then serves the old weight. Here caching is switched on, a
forward pass is made, the weight goes from 0.7 to 1.8, and inference mode with weight caching returns 1 instead of 2 from its second
forward pass on (its first one, outside export mode, returns 2). -/
theorem C53_stale_after_update :
    ((WeightProxy.init (7/10 : ℚ)).run toyQuantizer
      ([.train false, .setCache true, .call, .setWeight (18/10)] ++ inferenceSession true 1)).map (·.2) =
      some [(1, some ()), (2, some ()), (1, some ())] := by decide +kernel

/-- C53 fails in training mode if the module was put there inside inference mode: the cached weight is served although it changed. -/
theorem C53_training_inside_export :
    ((WeightProxy.init (7/10 : ℚ)).run toyQuantizer
      [.train false, .setCache true, .call, .setExport true, .train true, .setWeight (18/10), .call]).map (·.2) =
      some [(1, some ()), (1, some ())] := by decide +kernel

private theorem run_cons_silent {q : WeightQuantizer W V M} {p p' : WeightProxy W V M} {op : CacheOp W} {ops : List (CacheOp W)}
    (h : p.step q op = some (p', none)) : p.run q (op :: ops) = p'.run q ops := by
  simp [WeightProxy.run, h]

/-- C53: inference mode without weight caching leaves (metadata) caching switched on for good: leaving the session does not undo it. -/
theorem C53_caching_left_on (q : WeightQuantizer W V M) (w : W) (n : ℕ) (p' : WeightProxy W V M) (outs)
    (hr : (WeightProxy.init w).run q (.train false :: inferenceSession false n) = some (p', outs)) :
    p'.cacheOn = true ∧ p'.metadataOnly = true := by
  have gen : ∀ (ops : List (CacheOp W)) (p : WeightProxy W V M) (p' : WeightProxy W V M) outs,
      (∀ op ∈ ops, op = .call ∨ ∃ b, op = .setExport b) → p.run q ops = some (p', outs) →
      p'.cacheOn = p.cacheOn ∧ p'.metadataOnly = p.metadataOnly := by
    have hfw : ∀ (p : WeightProxy W V M) r, p.forward q = some r → r.1.cacheOn = p.cacheOn ∧ r.1.metadataOnly = p.metadataOnly := by
      intro p r h
      unfold WeightProxy.forward at h
      by_cases he : p.enabled = true
      · rw [if_pos he] at h
        split at h <;> simp only [Option.some.injEq, reduceCtorEq] at h <;> rw [← h] <;> exact ⟨rfl, rfl⟩
      · rw [if_neg he, Option.some.injEq] at h; rw [← h]; exact ⟨rfl, rfl⟩
    intro ops
    induction ops with
    | nil => intro p p' outs _ h; simp [WeightProxy.run] at h; simp [h.1]
    | cons op ops ih =>
      intro p p' outs hops h
      simp only [WeightProxy.run] at h
      obtain ⟨⟨p1, out⟩, h1, h⟩ := Option.bind_eq_some_iff.mp h
      obtain ⟨⟨p2, outs2⟩, h2, h⟩ := Option.map_eq_some_iff.mp h
      simp only [Prod.mk.injEq] at h
      obtain ⟨rfl, rfl⟩ := h
      obtain ⟨i1, i2⟩ := ih p1 p2 outs2 (fun o ho => hops o (by simp [ho])) h2
      have key : p1.cacheOn = p.cacheOn ∧ p1.metadataOnly = p.metadataOnly := by
        rcases hops op (by simp) with rfl | ⟨b, rfl⟩
        · simp only [WeightProxy.step, Option.map_eq_some_iff] at h1
          obtain ⟨r, hr, he⟩ := h1
          rw [Prod.mk.injEq] at he
          rw [← he.1]
          exact hfw p r hr
        · simp only [WeightProxy.step, Option.map_eq_some_iff] at h1
          obtain ⟨r, hr, he⟩ := h1
          rw [Prod.mk.injEq] at he
          rw [← he.1]
          unfold WeightProxy.setExport at hr
          split_ifs at hr
          · simp only [Option.some.injEq] at hr; rw [← hr]; exact ⟨rfl, rfl⟩
          · obtain ⟨p3, hf, hr⟩ := Option.bind_eq_some_iff.mp hr
            obtain ⟨m4, _, hr⟩ := Option.map_eq_some_iff.mp hr
            rw [← hr]
            exact hfw p _ hf
          · simp only [Option.some.injEq] at hr; rw [← hr]; exact ⟨rfl, rfl⟩
          · simp only [Option.some.injEq] at hr; rw [← hr]; exact ⟨rfl, rfl⟩
      exact ⟨i1.trans key.1, i2.trans key.2⟩
  have hr' : ∃ p : WeightProxy W V M, p.cacheOn = true ∧ p.metadataOnly = true ∧
      p.run q (.call :: .setExport true :: (List.replicate n .call ++ [.setExport false])) = some (p', outs) := by
    refine ⟨⟨w, false, true, true, true, none, none⟩, rfl, rfl, ?_⟩
    rw [← hr]
    simp only [inferenceSession, Bool.not_false, Bool.false_eq_true, if_false, List.append_assoc, List.cons_append, List.nil_append]
    rw [run_cons_silent (op := .train false) (p' := ⟨w, false, true, false, false, none, none⟩) rfl,
      run_cons_silent (op := .setCache true) (p' := ⟨w, false, true, true, false, none, none⟩) rfl,
      run_cons_silent (op := .setMetadataOnly true) (p' := ⟨w, false, true, true, true, none, none⟩) rfl]
  obtain ⟨p, h1, h2, h3⟩ := hr'
  have := gen _ p p' outs (by
    intro op hop
    simp only [List.mem_cons, List.mem_append, List.mem_replicate, List.not_mem_nil, or_false] at hop
    rcases hop with rfl | rfl | ⟨_, rfl⟩ | rfl <;> simp) h3
  exact ⟨this.1.trans h1, this.2.trans h2⟩

/-- The hypothesis on `requant` holds for integer quantisers that round to nearest, whatever scale, zero point and bit width their weight
gives them: the handler of inference mode reproduces the quantised weight. -/
theorem C53_int_requant {K : Type*} [Field K] [LinearOrder K] [IsStrictOrderedRing K] [FloorRing K] (signed narrow : Bool)
    (scale zeroPoint : List K → K) (bitWidth : List K → ℕ) (hb : ∀ w, 1 ≤ bitWidth w) (view : List K → List K) (w : List K) :
    let q : WeightQuantizer (List K) (List K) (K × K × ℕ) :=
      ⟨fun w => (w.map ((⟨signed, narrow, torchRound⟩ : IntQuantCfg K).forward (scale w) (zeroPoint w) (bitWidth w)),
          (scale w, zeroPoint w, bitWidth w)),
        fun m w => w.map (inferenceHandler narrow signed m.2.2 m.1 m.2.1), view⟩
    q.requant (q.quant w).2 w = (q.quant w).1 := by
  exact List.map_congr_left fun x _ => C49_inference _ _ _ (hb w) _ _ x

/-! ## Activation scales -/

/-- C53 (activations): as long as caching is never switched on, the scale reported by an activation quantiser is the current one, over every
history. -/
theorem C53_act_scale_uncached {S : Type*} (ops : List (ActCacheOp S)) (p : ActProxy S) (h0 : p.cached = none) (h1 : p.cacheOn = false)
    (hno : ActCacheOp.setCache true ∉ ops) :
    (p.run ops).2 = (ops.foldl (fun (acc : S × List S) op => match op with
      | .setScale s => (s, acc.2)
      | .readScale => (acc.1, acc.2 ++ [acc.1])
      | _ => acc) (p.scale, [])).2 := by
  suffices h : ∀ (ops : List (ActCacheOp S)) (p : ActProxy S) (acc : List S), p.cached = none → p.cacheOn = false →
      ActCacheOp.setCache true ∉ ops → acc ++ (p.run ops).2 = (ops.foldl (fun (acc : S × List S) op => match op with
      | .setScale s => (s, acc.2)
      | .readScale => (acc.1, acc.2 ++ [acc.1])
      | _ => acc) (p.scale, acc)).2 by
    simpa using h ops p [] h0 h1 hno
  clear h0 h1 hno
  intro ops
  induction ops with
  | nil => intro p acc _ _ _; simp [ActProxy.run]
  | cons op ops ih =>
    intro p acc h0 h1 hno
    have hno' : ActCacheOp.setCache true ∉ ops := fun h => hno (by simp [h])
    simp only [ActProxy.run, List.foldl_cons]
    cases op with
    | train b => simpa [ActProxy.step] using ih { p with training := b } acc h0 h1 hno'
    | setCache b =>
      have hb : b = false := by
        cases b with
        | false => rfl
        | true => simp at hno
      subst hb
      simpa [ActProxy.step] using ih { p with cacheOn := false } acc h0 rfl hno'
    | setScale s => simpa [ActProxy.step] using ih { p with scale := s } acc h0 h1 hno'
    | call =>
      have := ih { p with cached := if !p.training && p.cacheOn then some p.scale else p.cached } acc (by simp [h0, h1]) h1 hno'
      simpa [ActProxy.step] using this
    | readScale =>
      have := ih { p with cached := if p.cacheOn then some p.scale else none } (acc ++ [p.scale]) (by simp [h1]) h1 hno'
      simpa [ActProxy.step, h0] using this

/-- C53 fails for the scales reported by activation quantisers: once one forward pass was made with caching on (as inference mode and every
export do), switching caching off does not forget the cached scale, and from then on every request returns it, however the scale is
trained, calibrated or loaded afterwards, until caching is switched on again. -/
theorem C53_act_scale_stale {S : Type*} (ops : List (ActCacheOp S)) (p : ActProxy S) (s : S) (h0 : p.cached = some s)
    (h1 : p.cacheOn = false) (hno : ActCacheOp.setCache true ∉ ops) : ∀ r ∈ (p.run ops).2, r = s := by
  induction ops generalizing p with
  | nil => intro r hr; simp [ActProxy.run] at hr
  | cons op ops ih =>
    have hno' : ActCacheOp.setCache true ∉ ops := fun h => hno (by simp [h])
    intro r hr
    simp only [ActProxy.run, List.mem_append] at hr
    cases op with
    | train b => exact ih { p with training := b } h0 h1 hno' r (by simpa [ActProxy.step] using hr)
    | setCache b =>
      have hb : b = false := by
        cases b with
        | false => rfl
        | true => simp at hno
      subst hb
      exact ih { p with cacheOn := false } h0 rfl hno' r (by simpa [ActProxy.step] using hr)
    | setScale s' => exact ih { p with scale := s' } h0 h1 hno' r (by simpa [ActProxy.step] using hr)
    | call =>
      refine ih { p with cached := if !p.training && p.cacheOn then some p.scale else p.cached } (by simp [h1, h0]) h1 hno' r ?_
      simpa [ActProxy.step] using hr
    | readScale =>
      simp only [ActProxy.step, h0, Option.toList_some, List.mem_singleton] at hr
      rcases hr with hr | hr
      · exact hr
      · exact ih p h0 h1 hno' r hr

example : ((⟨(1 : ℚ), true, false, none⟩ : ActProxy ℚ).run
    [.train false, .setCache true, .call, .setCache false, .train true, .setScale 5, .call, .train false, .readScale]).2 = [1] := by
  decide +kernel

end Brevitas.Props
