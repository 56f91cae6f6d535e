import Verif.Model.GpxqMode
import Verif.Spec.Sequential
import Mathlib.Data.Int.Notation
import Mathlib.Data.List.Nodup
import Mathlib.Data.List.Perm.Basic
import Mathlib.Data.List.Forall2

/-!
# C88: greedy layerwise quantisation optimises every layer once, in order, on the network quantised so far
-/

namespace Brevitas.GpxqMode

open Brevitas.Spec

variable {P I W X : Type*}

/-- The key of a group: `'_'.join(group)`. -/
abbrev join (g : List String) : String := "_".intercalate g

/-! ### The dictionary of layers -/

private theorem removeAll_eq (g : List String) (d : List (String × List String)) (hg : g.Nodup) (hk : ∀ n ∈ g, n ∈ d.map Prod.fst) :
    removeAll g d = some (d.filter fun e => decide (e.1 ∉ g)) := by
  induction g generalizing d with
  | nil => simp [removeAll]
  | cons n g ih =>
    rw [List.nodup_cons] at hg
    unfold removeAll
    rw [if_pos (hk n (by simp)), ih _ hg.2]
    · rw [List.filter_filter]
      congr 1
      apply List.filter_congr
      intro e _
      by_cases h1 : e.1 = n <;> by_cases h2 : e.1 ∈ g <;> simp [h1, h2]
    · intro m hm
      obtain ⟨e, he, rfl⟩ := List.mem_map.mp (hk m (by simp [hm]))
      refine List.mem_map_of_mem (List.mem_filter.mpr ⟨he, ?_⟩)
      simp only [bne_iff_ne, ne_eq]
      rintro rfl
      exact hg.1 hm

private theorem setEntry_new (k : String) (g : List String) (d : List (String × List String)) (h : k ∉ d.map Prod.fst) :
    setEntry k g d = d ++ [(k, g)] := by
  induction d with
  | nil => rfl
  | cons e d ih =>
    simp only [List.map_cons, List.mem_cons, not_or] at h
    unfold setEntry
    rw [if_neg (fun h' => h.1 h'.symm), ih h.2]
    rfl

/-- The names of the groups do not clash: none is the name of a layer outside of it, and they are distinct. -/
structure NoClash (supported : List String) (groups : List (List String)) : Prop where
  layers : ∀ g ∈ groups, ∀ n ∈ supported, join g = n → n ∈ g
  groups : (groups.map join).Nodup

/-- The entries wanted: the groups, and every other layer on its own. -/
def wanted (supported : List String) (groups : List (List String)) : List (List String) :=
  groups ++ (supported.filter fun n => decide (n ∉ groups.flatten)).map fun n => [n]

private def entries (supported : List String) (groups : List (List String)) : List (String × List String) :=
  groups.map (fun g => (join g, g)) ++ (supported.filter fun n => decide (n ∉ groups.flatten)).map fun n => (n, [n])

private theorem addGroup_inv (supported : List String) (done : List (List String)) (g : List String) (d : List (String × List String))
    (hd : d.Perm (entries supported done)) (hn : (done ++ [g]).flatten.Nodup) (hsub : ∀ n ∈ (done ++ [g]).flatten, n ∈ supported)
    (hc : NoClash supported (done ++ [g])) :
    ∃ d', addGroup supported d g = some d' ∧ d'.Perm (entries supported (done ++ [g])) := by
  have hfl : (done ++ [g]).flatten = done.flatten ++ g := by simp
  rw [hfl, List.nodup_append] at hn
  obtain ⟨-, hgn, hdis⟩ := hn
  have hgs : ∀ n ∈ g, n ∈ supported := fun n hn => hsub n (by rw [hfl]; simp [hn])
  have hmem : ∀ k, k ∈ d.map Prod.fst ↔ (∃ g' ∈ done, join g' = k) ∨ (k ∈ supported ∧ k ∉ done.flatten) := by
    intro k
    rw [(hd.map Prod.fst).mem_iff]
    unfold entries
    rw [List.map_append, List.mem_append, List.map_map, List.map_map]
    simp only [List.mem_map, Function.comp_apply, List.mem_filter, decide_eq_true_eq, exists_eq_right]
  have hr : removeAll g d = some (d.filter fun e => decide (e.1 ∉ g)) :=
    removeAll_eq g d hgn fun n hn => (hmem n).mpr (.inr ⟨hgs n hn, fun h => hdis n h n hn rfl⟩)
  have hjg : ∀ g' ∈ done, join g' ∉ g := by
    intro g' hg' h
    have h1 := hc.layers g' (by simp [hg']) (join g') (hgs _ h) rfl
    exact hdis (join g') (List.mem_flatten_of_mem hg' h1) (join g') h rfl
  have hnew : join g ∉ (d.filter fun e => decide (e.1 ∉ g)).map Prod.fst := by
    intro h
    obtain ⟨e, he, hk⟩ := List.mem_map.mp h
    obtain ⟨he1, he2⟩ := List.mem_filter.mp he
    rcases (hmem e.1).mp (List.mem_map_of_mem he1) with ⟨g', hg', hj⟩ | ⟨h1, -⟩
    · have := hc.groups
      rw [List.map_append, List.nodup_append] at this
      exact this.2.2 (join g') (List.mem_map_of_mem hg') (join g) (by simp) (by rw [hj, hk])
    · have : e.1 ∈ g := hc.layers g (by simp) e.1 h1 hk.symm
      simp [this] at he2
  refine ⟨(d.filter fun e => decide (e.1 ∉ g)) ++ [(join g, g)], ?_, ?_⟩
  · unfold addGroup
    rw [hr]
    simp only [Option.bind_some]
    rw [if_pos (by rw [List.all_eq_true]; intro n hn; simpa using hgs n hn), setEntry_new _ _ _ hnew]
  · have h1 := (hd.filter fun e => decide (e.1 ∉ g)).append_right [(join g, g)]
    refine h1.trans ?_
    unfold entries
    rw [List.filter_append, List.filter_map, List.filter_map]
    have h2 : (done.filter ((fun e : String × List String => decide (e.1 ∉ g)) ∘ fun g => (join g, g))) = done := by
      rw [List.filter_eq_self]
      intro g' hg'
      simpa using hjg g' hg'
    rw [h2, List.filter_filter]
    have h3 : (supported.filter fun n => ((fun e : String × List String => decide (e.1 ∉ g)) ∘ fun n => (n, [n])) n && decide (n ∉ done.flatten)) =
        supported.filter fun n => decide (n ∉ (done ++ [g]).flatten) := by
      apply List.filter_congr
      intro n _
      rw [hfl]
      by_cases ha : n ∈ g <;> by_cases hb : n ∈ done.flatten <;> simp [ha, hb]
    rw [h3, List.map_append]
    simp only [List.map_cons, List.map_nil, List.append_assoc]
    exact (List.perm_append_comm).append_left _

/-- C88: with disjoint groups of layers of the model and without a clash of names, every layer is given a hook and belongs to exactly one entry:
its group, or itself; there are as many rounds as entries. -/
theorem C88_enter (supported : List String) (groups : List (List String)) (hg : groups.flatten.Nodup)
    (hsub : ∀ n ∈ groups.flatten, n ∈ supported) (hc : NoClash supported groups) :
    ∃ d, enter supported groups = some d ∧ (d.map Prod.snd).Perm (wanted supported groups) := by
  have key : ∀ (rest done : List (List String)) (d : List (String × List String)), done ++ rest = groups → d.Perm (entries supported done) →
      ∃ d', rest.foldlM (addGroup supported) d = some d' ∧ d'.Perm (entries supported groups) := by
    intro rest
    induction rest with
    | nil =>
      intro done d h hd
      rw [List.append_nil] at h
      exact ⟨d, rfl, h ▸ hd⟩
    | cons g rest ih =>
      intro done d h hd
      have h' : (done ++ [g]) ++ rest = groups := by rw [← h]; simp
      have hpre : (done ++ [g]) <+: groups := ⟨rest, h'⟩
      have hflat : groups.flatten = (done ++ [g]).flatten ++ rest.flatten := by rw [← h', List.flatten_append]
      obtain ⟨d1, h1, h2⟩ := addGroup_inv supported done g d hd
        (by rw [hflat, List.nodup_append] at hg; exact hg.1)
        (fun n hn => hsub n (by rw [hflat]; simp only [List.mem_append]; exact .inl hn))
        ⟨fun g' hg' => hc.layers g' (hpre.subset hg'), by
          have := hc.groups
          rw [← h', List.map_append, List.nodup_append] at this
          exact this.1⟩
      obtain ⟨d2, h3, h4⟩ := ih (done ++ [g]) d1 h' h2
      refine ⟨d2, ?_, h4⟩
      rw [List.foldlM_cons, h1]
      exact h3
  obtain ⟨d, h1, h2⟩ := key groups [] (supported.map fun n => (n, [n])) rfl (by simp [entries])
  refine ⟨d, h1, ?_⟩
  have := h2.map Prod.snd
  refine this.trans ?_
  unfold entries wanted
  rw [List.map_append, List.map_map, List.map_map]
  simp [Function.comp_def]

private theorem wanted_flatten (supported : List String) (groups : List (List String)) (hs : supported.Nodup) (hg : groups.flatten.Nodup)
    (hsub : ∀ n ∈ groups.flatten, n ∈ supported) : (wanted supported groups).flatten.Perm supported := by
  have h1 : (wanted supported groups).flatten = groups.flatten ++ supported.filter fun n => decide (n ∉ groups.flatten) := by
    unfold wanted
    rw [List.flatten_append]
    congr 1
    induction supported.filter fun n => decide (n ∉ groups.flatten) with
    | nil => rfl
    | cons a l ih => simp [ih]
  rw [h1]
  apply (List.perm_ext_iff_of_nodup _ hs).mpr
  · intro n
    simp only [List.mem_append, List.mem_filter, decide_eq_true_eq]
    constructor
    · rintro (h | h)
      · exact hsub n h
      · exact h.1
    · intro h
      by_cases h' : n ∈ groups.flatten
      · exact .inl h'
      · exact .inr ⟨h, h'⟩
  · rw [List.nodup_append]
    refine ⟨hg, hs.filter _, ?_⟩
    rintro a ha b hb rfl
    have := (List.mem_filter.mp hb).2
    simp only [decide_eq_true_eq] at this
    exact this ha

private theorem lenParallel_eq (d : List (String × List String)) (hn : (d.map Prod.snd).flatten.Nodup) (g : List String)
    (hg : g ∈ d.map Prod.snd) (n : String) (hng : n ∈ g) : lenParallel d n = g.length := by
  unfold lenParallel
  induction d with
  | nil => simp at hg
  | cons e d ih =>
    rw [List.map_cons, List.flatten_cons, List.nodup_append] at hn
    rw [List.map_cons, List.mem_cons] at hg
    by_cases he : n ∈ e.2
    · have : (e :: d).find? (fun e => decide (n ∈ e.2)) = some e := by rw [List.find?_cons]; simp [he]
      rw [this]
      rcases hg with rfl | hg
      · rfl
      · exact absurd rfl (hn.2.2 n he n (List.mem_flatten_of_mem hg hng))
    · have : (e :: d).find? (fun e => decide (n ∈ e.2)) = d.find? fun e => decide (n ∈ e.2) := by rw [List.find?_cons]; simp [he]
      rw [this]
      rcases hg with rfl | hg
      · exact absurd hng he
      · exact ih hn.2.1 hg

/-! ### One pass -/

private theorem runCalls_skip (len : String → ℕ) (p : P) (cs rest : List (String × I)) (s : State P I W) (h : ∀ c ∈ cs, s.hooked c.1 = false) :
    runCalls len p (cs ++ rest) s = runCalls len p rest s := by
  induction cs with
  | nil => rfl
  | cons c cs ih =>
    rw [List.cons_append]
    conv_lhs => unfold runCalls
    rw [if_neg (by simp [h c (by simp)]), ih fun c hc => h c (by simp [hc])]

/-- The inputs of a layer among calls. -/
def inputsOf (p : P) (n : String) (cs : List (String × I)) : List (P × I) := (cs.filter fun c => c.1 == n).map fun c => (p, c.2)

private structure Seen (s s' : State P I W) (g : List String) (new : String → List (P × I)) : Prop where
  hooked : s'.hooked = s.hooked
  weights : s'.weights = s.weights
  count : s'.count = 0
  names : ∀ n, n ∈ s'.names ↔ n ∈ s.names ∨ n ∈ g
  nodup : s'.names.Nodup
  stats : ∀ n, s'.stats n = s.stats n ++ new n

private theorem runCalls_group (len : String → ℕ) (p : P) (L : ℕ) (cs rest : List (String × I)) (s : State P I W)
    (hh : ∀ c ∈ cs, s.hooked c.1 = true ∧ len c.1 = L) (hne : cs ≠ []) (hL : s.count + cs.length = L) (hn : s.names.Nodup) :
    ∃ s', runCalls len p (cs ++ rest) s = (s', true) ∧ Seen s s' (cs.map Prod.fst) fun n => inputsOf p n cs := by
  induction cs generalizing s with
  | nil => exact absurd rfl hne
  | cons c cs ih =>
    obtain ⟨hc, hlen⟩ := hh c (by simp)
    rw [List.cons_append]
    conv => enter [1, s']; rw [runCalls.eq_def]
    dsimp only
    rw [if_pos hc]
    have hnd : (if c.1 ∈ s.names then s.names else s.names ++ [c.1]).Nodup := by
      by_cases h : c.1 ∈ s.names
      · rw [if_pos h]; exact hn
      · rw [if_neg h, List.nodup_append]
        refine ⟨hn, by simp, ?_⟩
        rintro a ha b hb rfl
        rw [List.mem_singleton] at hb
        exact h (hb ▸ ha)
    have hmem : ∀ n, n ∈ (if c.1 ∈ s.names then s.names else s.names ++ [c.1]) ↔ n ∈ s.names ∨ n = c.1 := by
      intro n
      by_cases h : c.1 ∈ s.names
      · rw [if_pos h]
        constructor
        · exact .inl
        · rintro (h' | rfl)
          · exact h'
          · exact h
      · rw [if_neg h]; simp
    have hstat : ∀ n, Function.update s.stats c.1 (s.stats c.1 ++ [(p, c.2)]) n = s.stats n ++ inputsOf p n [c] := by
      intro n
      by_cases h : n = c.1
      · subst h; simp [inputsOf]
      · rw [Function.update_of_ne h]
        have h' : ¬c.1 = n := fun h' => h h'.symm
        simp [inputsOf, h']
    by_cases hcs : cs = []
    · subst hcs
      have hub : updateBatch len c.1 p c.2 s =
          ({ s with
            names := if c.1 ∈ s.names then s.names else s.names ++ [c.1]
            stats := Function.update s.stats c.1 (s.stats c.1 ++ [(p, c.2)])
            count := 0 }, true) := by
        unfold updateBatch
        exact if_pos (by rw [hlen, ← hL]; rfl)
      rw [hub]
      refine ⟨_, rfl, ⟨rfl, rfl, rfl, ?_, hnd, hstat⟩⟩
      intro n
      rw [hmem n]; simp
    · have hlt : s.count + 1 ≠ len c.1 := by
        have : cs.length ≠ 0 := by simpa using hcs
        rw [hlen, ← hL, List.length_cons]; omega
      have hub : updateBatch len c.1 p c.2 s =
          ({ s with
            names := if c.1 ∈ s.names then s.names else s.names ++ [c.1]
            stats := Function.update s.stats c.1 (s.stats c.1 ++ [(p, c.2)])
            count := s.count + 1 }, false) := by
        unfold updateBatch
        exact if_neg hlt
      rw [hub]
      simp only [Bool.false_eq_true, if_false]
      obtain ⟨s', h1, h2⟩ := ih
        { s with
          names := if c.1 ∈ s.names then s.names else s.names ++ [c.1]
          stats := Function.update s.stats c.1 (s.stats c.1 ++ [(p, c.2)])
          count := s.count + 1 }
        (fun c' hc' => hh c' (by simp [hc'])) hcs (by rw [← hL, List.length_cons]; dsimp only; omega) hnd
      refine ⟨s', h1, ⟨h2.hooked, h2.weights, h2.count, ?_, h2.nodup, ?_⟩⟩
      · intro n
        rw [h2.names n]
        dsimp only
        rw [hmem n]; simp [or_assoc]
      · intro n
        rw [h2.stats n]
        dsimp only
        rw [hstat n, List.append_assoc]
        congr 1
        rw [inputsOf, inputsOf, inputsOf, ← List.map_append, ← List.filter_append]
        rfl

private theorem split_calls {α β : Type*} (cs : List (α × β)) (a b : List α) (h : cs.map Prod.fst = a ++ b) :
    ∃ ca cb, cs = ca ++ cb ∧ ca.map Prod.fst = a ∧ cb.map Prod.fst = b := by
  exact List.map_eq_append_iff.mp h

/-- Where a round stands: the layers of `done` have no hook, those of the group `g` and of `rest` have. -/
private structure Ready (len : String → ℕ) (s : State P I W) (done g rest : List String) : Prop where
  undone : ∀ n ∈ done, s.hooked n = false
  hooked : ∀ n ∈ g, s.hooked n = true
  len : ∀ n ∈ g, len n = g.length
  count : s.count = 0
  nodup : s.names.Nodup

private theorem pass_seen (len : String → ℕ) (p : P) (cs : List (String × I)) (s : State P I W) (done g rest : List String)
    (hcs : cs.map Prod.fst = done ++ (g ++ rest)) (hnd : (done ++ (g ++ rest)).Nodup) (hg : g ≠ []) (hr : Ready len s done g rest) :
    Seen s (runCalls len p cs s).1 g fun n => if n ∈ g then inputsOf p n cs else [] := by
  obtain ⟨ca, cb, rfl, ha, hb⟩ := split_calls cs done (g ++ rest) hcs
  obtain ⟨cg, cr, rfl, hcg, hcr⟩ := split_calls cb g rest hb
  rw [runCalls_skip len p ca _ s fun c hc => hr.undone c.1 (by rw [← ha]; exact List.mem_map_of_mem hc)]
  obtain ⟨s', h1, h2⟩ := runCalls_group len p g.length cg cr s
    (fun c hc => by
      have : c.1 ∈ g := by rw [← hcg]; exact List.mem_map_of_mem hc
      exact ⟨hr.hooked _ this, hr.len _ this⟩)
    (by rintro rfl; exact hg hcg.symm) (by rw [hr.count, ← hcg]; simp) hr.nodup
  rw [h1]
  refine ⟨h2.hooked, h2.weights, h2.count, fun n => by rw [h2.names n, hcg], h2.nodup, fun n => ?_⟩
  rw [h2.stats n]
  congr 1
  rw [List.nodup_append, List.nodup_append] at hnd
  obtain ⟨-, ⟨-, -, hgr⟩, hdg⟩ := hnd
  have hnil : ∀ l : List (String × I), n ∉ l.map Prod.fst → inputsOf p n l = [] := by
    intro l hl
    unfold inputsOf
    rw [List.map_eq_nil_iff, List.filter_eq_nil_iff]
    intro c hc h
    have : c.1 = n := by simpa using h
    exact hl (this ▸ List.mem_map_of_mem hc)
  by_cases hn : n ∈ g
  · rw [if_pos hn]
    have e1 : inputsOf p n ca = [] := hnil ca (by rw [ha]; exact fun h => hdg n h n (by simp [hn]) rfl)
    have e2 : inputsOf p n cr = [] := hnil cr (by rw [hcr]; exact fun h => hgr n hn n h rfl)
    have e3 : inputsOf p n (ca ++ (cg ++ cr)) = inputsOf p n ca ++ (inputsOf p n cg ++ inputsOf p n cr) := by
      simp [inputsOf]
    rw [e3, e1, e2]; simp
  · rw [if_neg hn]
    exact hnil cg (by rw [hcg]; exact hn)

private theorem Seen.trans {s s' s'' : State P I W} {g : List String} {a b : String → List (P × I)} (h : Seen s s' g a) (h' : Seen s' s'' g b) :
    Seen s s'' g fun n => a n ++ b n where
  hooked := h'.hooked.trans h.hooked
  weights := h'.weights.trans h.weights
  count := h'.count
  names n := by rw [h'.names, h.names]; tauto
  nodup := h'.nodup
  stats n := by rw [h'.stats, h.stats, List.append_assoc]

private theorem Ready.seen {len : String → ℕ} {s s' : State P I W} {done g rest : List String} {new : String → List (P × I)}
    (h : Ready len s done g rest) (h' : Seen s s' g new) : Ready len s' done g rest :=
  ⟨fun n hn => by rw [h'.hooked]; exact h.undone n hn, fun n hn => by rw [h'.hooked]; exact h.hooked n hn, h.len, h'.count, h'.nodup⟩

/-- The inputs a layer receives on a batch, pass by pass. -/
def received (calls : P → (String → W) → X → List (String × I)) (passes : List P) (n : String) (w : String → W) (x : X) : List (P × I) :=
  passes.flatMap fun p => inputsOf p n (calls p w x)

private theorem catchStop_seen (len : String → ℕ) (calls : P → (String → W) → X → List (String × I)) (passes : List P) (s : State P I W)
    (x : X) (done g rest : List String) (hcalls : ∀ p w x, (calls p w x).map Prod.fst = done ++ (g ++ rest))
    (hnd : (done ++ (g ++ rest)).Nodup) (hg : g ≠ []) (hp : passes ≠ []) (hr : Ready len s done g rest) :
    Seen s (catchStop len calls passes s x) g fun n => if n ∈ g then received calls passes n s.weights x else [] := by
  unfold catchStop received
  induction passes generalizing s with
  | nil => exact absurd rfl hp
  | cons p ps ih =>
    have h1 := pass_seen len p (calls p s.weights x) s done g rest (hcalls _ _ _) hnd hg hr
    rw [List.foldl_cons]
    by_cases hps : ps = []
    · subst hps
      simpa using h1
    · have h2 := ih (runCalls len p (calls p s.weights x) s).1 hps (hr.seen h1)
      rw [h1.weights] at h2
      have := h1.trans h2
      refine ⟨this.hooked, this.weights, this.count, this.names, this.nodup, fun n => ?_⟩
      rw [this.stats n]
      by_cases hn : n ∈ g <;> simp [hn]

private theorem batches_seen (len : String → ℕ) (calls : P → (String → W) → X → List (String × I)) (passes : List P) (s : State P I W)
    (xs : List X) (done g rest : List String) (hcalls : ∀ p w x, (calls p w x).map Prod.fst = done ++ (g ++ rest))
    (hnd : (done ++ (g ++ rest)).Nodup) (hg : g ≠ []) (hp : passes ≠ []) (hxs : xs ≠ []) (hr : Ready len s done g rest) :
    Seen s (xs.foldl (catchStop len calls passes) s) g fun n => if n ∈ g then xs.flatMap (received calls passes n s.weights) else [] := by
  induction xs generalizing s with
  | nil => exact absurd rfl hxs
  | cons x xs ih =>
    have h1 := catchStop_seen len calls passes s x done g rest hcalls hnd hg hp hr
    rw [List.foldl_cons]
    by_cases hx : xs = []
    · subst hx
      simpa using h1
    · have h2 := ih (catchStop len calls passes s x) hx (hr.seen h1)
      rw [h1.weights] at h2
      have := h1.trans h2
      refine ⟨this.hooked, this.weights, this.count, this.names, this.nodup, fun n => ?_⟩
      rw [this.stats n]
      by_cases hn : n ∈ g <;> simp [hn]

/-! ### Updating -/

private theorem fold_updateLayer (optimise : String → List (P × I) → W → W) (names : List String) (s : State P I W) (hn : names.Nodup) :
    names.foldl (updateLayer optimise) s =
      { s with
        weights := fun n => if n ∈ names then optimise n (s.stats n) (s.weights n) else s.weights n
        hooked := fun n => if n ∈ names then false else s.hooked n } := by
  induction names generalizing s with
  | nil => simp
  | cons a names ih =>
    rw [List.nodup_cons] at hn
    rw [List.foldl_cons, ih _ hn.2]
    unfold updateLayer
    dsimp only
    congr 1
    · funext n
      by_cases h : n = a
      · subst h; simp
      · rw [Function.update_of_ne h]; simp [h]
    · funext n
      by_cases h : n = a
      · subst h; simp [hn.1]
      · rw [Function.update_of_ne h]; simp [h]

/-- C88: the layers of a group are a set: in whatever order they are visited, `update()` has the same effect. -/
theorem C88_update_order (optimise : String → List (P × I) → W → W) (s : State P I W) (order : List String) (h : order.Perm s.names)
    (hn : s.names.Nodup) : update optimise { s with names := order } = update optimise s := by
  unfold update
  dsimp only
  rw [fold_updateLayer optimise order _ (h.nodup_iff.mpr hn), fold_updateLayer optimise s.names _ hn]
  simp only [h.mem_iff]

private theorem run_inv (len : String → ℕ) (calls : P → (String → W) → X → List (String × I)) (passes : List P)
    (optimise : String → List (P × I) → W → W) (hp : passes ≠ []) (segs : List (List String)) (rounds : List (List X)) (s : State P I W)
    (done : List String) (hlen : rounds.length = segs.length) (hne : ∀ g ∈ segs, g ≠ []) (hr : ∀ r ∈ rounds, r ≠ [])
    (hcalls : ∀ p w x, (calls p w x).map Prod.fst = done ++ segs.flatten) (hnd : (done ++ segs.flatten).Nodup)
    (hh : ∀ n, s.hooked n = decide (n ∈ segs.flatten)) (hnames : s.names = []) (hcount : s.count = 0)
    (hlp : ∀ g ∈ segs, ∀ n ∈ g, len n = g.length) (hstats : ∀ n ∈ segs.flatten, s.stats n = []) :
    let s' := run len calls passes optimise rounds s
    s'.weights = sequential (fun n w x => received calls passes n w x) optimise segs rounds s.weights ∧ (∀ n, s'.hooked n = false) ∧
      s'.names = [] ∧ s'.count = 0 := by
  induction segs generalizing rounds s done with
  | nil =>
    cases rounds with
    | nil =>
      exact ⟨rfl, fun n => by show s.hooked n = false; rw [hh]; simp, hnames, hcount⟩
    | cons r rs => simp at hlen
  | cons g segs ih =>
    cases rounds with
    | nil => simp at hlen
    | cons xs rounds =>
      rw [List.flatten_cons] at hcalls hnd
      have hready : Ready len s done g segs.flatten := by
        refine ⟨fun n hn => ?_, fun n hn => ?_, hlp g (by simp), hcount, by rw [hnames]; simp⟩
        · rw [hh, decide_eq_false_iff_not]
          rw [List.nodup_append] at hnd
          rw [List.flatten_cons]
          exact fun h => hnd.2.2 n hn n h rfl
        · rw [hh, decide_eq_true_eq]; simp [hn]
      have hseen := batches_seen len calls passes s xs done g segs.flatten hcalls hnd (hne g (by simp)) hp (hr xs (by simp)) hready
      generalize hs1 : xs.foldl (catchStop len calls passes) s = s1 at hseen
      have hmem : ∀ n, n ∈ s1.names ↔ n ∈ g := by
        intro n; rw [hseen.names n, hnames]; simp
      have hup : update optimise s1 = { s1 with
          weights := fun n => if n ∈ g then optimise n (s1.stats n) (s1.weights n) else s1.weights n
          hooked := fun n => if n ∈ g then false else s1.hooked n
          names := [] } := by
        unfold update
        rw [fold_updateLayer optimise s1.names s1 hseen.nodup]
        simp only [hmem]
      have hgs : ∀ n ∈ segs.flatten, n ∉ g := by
        intro n hn hg
        rw [List.nodup_append, List.nodup_append] at hnd
        exact hnd.2.1.2.2 n hg n hn rfl
      have hrun : run len calls passes optimise (xs :: rounds) s = run len calls passes optimise rounds (update optimise s1) := by
        unfold run
        rw [List.foldl_cons, hs1]
      have := ih rounds (update optimise s1) (done ++ g) (by simpa using hlen) (fun g' hg' => hne g' (by simp [hg']))
        (fun r hr' => hr r (by simp [hr'])) (fun p w x => by rw [hcalls p w x, List.append_assoc])
        (by rw [List.append_assoc]; exact hnd)
        (fun n => by
          rw [hup]
          dsimp only
          rw [hseen.hooked, hh n, List.flatten_cons]
          by_cases h1 : n ∈ g
          · rw [if_pos h1]
            symm
            rw [decide_eq_false_iff_not]
            exact fun h => hgs n h h1
          · rw [if_neg h1]; simp [h1])
        (by rw [hup]) (by rw [hup]; exact hseen.count) (fun g' hg' => hlp g' (by simp [hg']))
        (fun n hn => by
          rw [hup]
          dsimp only
          rw [hseen.stats n, hstats n (by rw [List.flatten_cons]; simp only [List.mem_append]; exact .inr hn), if_neg (hgs n hn)]
          rfl)
      dsimp only at this ⊢
      rw [hrun]
      refine ⟨?_, this.2⟩
      rw [this.1]
      conv_rhs => unfold sequential
      congr 1
      rw [hup]
      dsimp only
      funext n
      rw [hseen.weights]
      by_cases hn : n ∈ g
      · rw [if_pos hn, if_pos hn, hseen.stats n, if_pos hn, hstats n (by simp [hn])]
        rfl
      · rw [if_neg hn, if_neg hn]

/-- The same groups, in any order and each in any order. -/
def SameGroups (a b : List (List String)) : Prop := ∃ c, List.Forall₂ List.Perm a c ∧ c.Perm b

private theorem forall2_flatten {a b : List (List String)} (h : List.Forall₂ List.Perm a b) : a.flatten.Perm b.flatten := by
  induction h with
  | nil => simp
  | cons h _ ih => simpa using h.append ih

private theorem forall2_mem {a b : List (List String)} (h : List.Forall₂ List.Perm a b) {g : List String} (hg : g ∈ a) : ∃ g' ∈ b, g.Perm g' := by
  induction h with
  | nil => simp at hg
  | cons h _ ih =>
    rcases List.mem_cons.mp hg with rfl | hg
    · exact ⟨_, by simp, h⟩
    · obtain ⟨g', h1, h2⟩ := ih hg
      exact ⟨g', by simp [h1], h2⟩

/-- C88: a model whose supported layers are each called once in a pass, the layers of a group next to each other. Running as many rounds of
calibration as the mode announces, each on at least one batch, optimises the groups one after the other in the order of execution, each layer
once, on the inputs it receives in the model with the earlier groups optimised and the others not; afterwards no hook is left. This for every
model, every groups, every calibration data, and whatever is done to optimise a layer; `passes` has one element for GPTQ and two for GPFQ. -/
theorem C88_schedule (supported : List String) (groups segs : List (List String)) (hs : supported.Nodup) (hg : groups.flatten.Nodup)
    (hsub : ∀ n ∈ groups.flatten, n ∈ supported) (hne : ∀ g ∈ groups, g ≠ []) (hc : NoClash supported groups)
    (calls : P → (String → W) → X → List (String × I)) (hseg : SameGroups segs (wanted supported groups))
    (hcalls : ∀ p w x, (calls p w x).map Prod.fst = segs.flatten) (passes : List P) (hp : passes ≠ [])
    (optimise : String → List (P × I) → W → W) (w : String → W) :
    ∃ d, enter supported groups = some d ∧
      ∀ rounds : List (List X), rounds.length = d.length → (∀ r ∈ rounds, r ≠ []) →
        let s := run (lenParallel d) calls passes optimise rounds (State.init d w)
        s.weights = sequential (fun n w x => received calls passes n w x) optimise segs rounds w ∧ (∀ n, s.hooked n = false) ∧ s.count = 0 := by
  obtain ⟨d, hd, hperm⟩ := C88_enter supported groups hg hsub hc
  obtain ⟨segs', hf, hseg⟩ := hseg
  have hds : (d.map Prod.snd).Perm segs' := hperm.trans hseg.symm
  have hflat := forall2_flatten hf
  have hnd' : segs'.flatten.Nodup := by
    have h1 : segs'.flatten.Perm supported := (hseg.flatten).trans (wanted_flatten supported groups hs hg hsub)
    exact h1.nodup_iff.mpr hs
  have hnd : segs.flatten.Nodup := hflat.nodup_iff.mpr hnd'
  refine ⟨d, hd, fun rounds hlen hr => ?_⟩
  have := run_inv (lenParallel d) calls passes optimise hp segs rounds (State.init d w) []
    (by rw [hlen, hf.length_eq, ← hds.length_eq, List.length_map])
    (fun g hg' => by
      obtain ⟨g', h1, h2⟩ := forall2_mem hf hg'
      have : g' ≠ [] := by
        rcases List.mem_append.mp (hseg.mem_iff.mp h1) with h | h
        · exact hne g' h
        · obtain ⟨n, -, rfl⟩ := List.mem_map.mp h
          simp
      rintro rfl
      exact this h2.nil_eq.symm)
    hr (fun p w x => by rw [hcalls]; rfl) hnd
    (fun n => by
      show decide (n ∈ d.flatMap Prod.snd) = _
      have : n ∈ d.flatMap Prod.snd ↔ n ∈ segs.flatten := by
        rw [List.flatMap_def, hds.flatten.mem_iff, hflat.mem_iff]
      simp only [this])
    rfl rfl
    (fun g hg' n hn => by
      obtain ⟨g', h1, h2⟩ := forall2_mem hf hg'
      rw [h2.length_eq]
      exact lenParallel_eq d (hds.flatten.nodup_iff.mpr hnd') g' (hds.mem_iff.mpr h1) n (h2.mem_iff.mp hn))
    (fun _ _ => rfl)
  exact ⟨this.1, this.2.1, this.2.2.2⟩

/-! ### Where it does not hold -/

/-- Leaving the mode does not remove the hooks: after leaving it without any round, every call of the model raises StopFwdException. -/
theorem C88_hooks_left (d : List (String × List String)) (hn : (d.map Prod.snd).flatten.Nodup) (g : List String) (hg : g ∈ d.map Prod.snd)
    (calls : P → (String → W) → X → List (String × I)) (rest : List String) (hcalls : ∀ p w x, (calls p w x).map Prod.fst = g ++ rest)
    (hne : g ≠ []) (p : P) (x : X) (w : String → W) : raisesAfterExit (lenParallel d) calls p x (State.init d w) = true := by
  unfold raisesAfterExit
  obtain ⟨cg, cr, h, hcg, -⟩ := split_calls (calls p (State.init (P := P) (I := I) d w).weights x) g rest (hcalls _ _ _)
  rw [h]
  obtain ⟨s', h1, -⟩ := runCalls_group (lenParallel d) p g.length cg cr (State.init d w)
    (fun c hc => by
      have : c.1 ∈ g := by rw [← hcg]; exact List.mem_map_of_mem hc
      refine ⟨?_, lenParallel_eq d hn g hg _ this⟩
      show decide (c.1 ∈ d.flatMap Prod.snd) = true
      rw [decide_eq_true_eq, List.flatMap_def]
      exact List.mem_flatten_of_mem hg this)
    (by rintro rfl; exact hne hcg.symm) (by rw [← hcg]; simp [State.init]) (by simp [State.init])
  rw [h1]

/-- A layer whose name is the names of a group joined by `_` loses its entry to the group: it gets no hook and is not optimised. -/
theorem C88_name_clash : enter ["q", "k", "q_k"] [["q", "k"]] = some [("q_k", ["q", "k"])] := by decide +kernel

/-- A network that multiplies its input by the weights of its layers, in this order. -/
private def product (order : List String) (_ : Unit) (w : String → ℤ) (x : ℤ) : List (String × ℤ) :=
  match order with
  | [] => []
  | n :: order => (n, x) :: product order () w (x * w n)

/-- An "optimisation" that shows what it was given: the sum of the inputs is added to the weight. -/
private def record (_ : String) (stats : List (Unit × ℤ)) (w : ℤ) : ℤ := w + (stats.map Prod.snd).sum

/-- A group whose layers are not next to each other, `a` and `c` around `b`: the pass is never stopped, and `b` is optimised on what it receives
from the `a` that is not optimised (2 instead of 3). -/
theorem C88_split_group :
    ∃ d, enter ["a", "b", "c"] [["a", "c"]] = some d ∧ d.length = 2 ∧
      (run (lenParallel d) (product ["a", "b", "c"]) [()] record [[1], [1]] (State.init d fun _ => 2)).weights "a" = 3 ∧
      (run (lenParallel d) (product ["a", "b", "c"]) [()] record [[1], [1]] (State.init d fun _ => 2)).weights "b" = 2 + 2 := by
  refine ⟨[("b", ["b"]), ("a_c", ["a", "c"])], ?_⟩
  decide +kernel

/-- A layer of a group that is called twice in a pass, `q q k` before `o`: `k` is left to the next round, which is then never stopped, and `o` is
optimised on what it receives from the `k` that is not optimised. -/
theorem C88_called_twice :
    ∃ d, enter ["q", "k", "o"] [["q", "k"]] = some d ∧ d.length = 2 ∧
      (run (lenParallel d) (product ["q", "q", "k", "o"]) [()] record [[1], [1]] (State.init d fun _ => 2)).weights "q" = 5 ∧
      (run (lenParallel d) (product ["q", "q", "k", "o"]) [()] record [[1], [1]] (State.init d fun _ => 2)).weights "k" = 2 + 25 ∧
      (run (lenParallel d) (product ["q", "q", "k", "o"]) [()] record [[1], [1]] (State.init d fun _ => 2)).weights "o" = 2 + 25 * 2 := by
  refine ⟨[("o", ["o"]), ("q_k", ["q", "k"])], ?_⟩
  decide +kernel

/-- A round without data is lost: the last layer is not optimised, keeps its hook, and the model raises afterwards. -/
theorem C88_empty_round :
    let d := [("a", ["a"]), ("b", ["b"])]
    let s := run (lenParallel d) (product ["a", "b"]) [()] record [[], [1]] (State.init d fun _ => 2)
    enter ["a", "b"] [] = some d ∧ s.weights "b" = 2 ∧ raisesAfterExit (lenParallel d) (product ["a", "b"]) () 1 s = true := by
  decide +kernel

/-! ### Concrete cases -/

private theorem product_names (order : List String) (p : Unit) (w : String → ℤ) (x : ℤ) : (product order p w x).map Prod.fst = order := by
  induction order generalizing x with
  | nil => rfl
  | cons n order ih => simp [product, ih]

/-- The hypotheses of `C88_schedule` hold for a network with a group and two layers of their own, executed in another order than they are
registered in. -/
example : ∃ d, enter ["fc", "k", "q", "emb"] [["q", "k"]] = some d ∧
    ∀ rounds : List (List ℤ), rounds.length = d.length → (∀ r ∈ rounds, r ≠ []) →
      let s := run (lenParallel d) (product ["emb", "k", "q", "fc"]) [()] record rounds (State.init d fun _ => 2)
      s.weights = sequential (fun n w x => received (product ["emb", "k", "q", "fc"]) [()] n w x) record [["emb"], ["k", "q"], ["fc"]] rounds
          (fun _ => 2) ∧ (∀ n, s.hooked n = false) ∧ s.count = 0 :=
  C88_schedule ["fc", "k", "q", "emb"] [["q", "k"]] [["emb"], ["k", "q"], ["fc"]] (by decide) (by decide) (by decide) (by decide)
    ⟨by decide +kernel, by decide +kernel⟩ (product ["emb", "k", "q", "fc"]) ⟨[["emb"], ["q", "k"], ["fc"]], by decide +kernel, by decide +kernel⟩ (fun p w x => product_names _ p w x) [()] (by decide)
    record fun _ => 2

/-- The values in this case: with one batch per round, `emb` sees 1, `k` the 3 of the optimised `emb`, and `q` the product with the `k` that is
not optimised yet. -/
example :
    ["emb", "k", "q", "fc"].map (sequential (fun n w x => received (product ["emb", "k", "q", "fc"]) [()] n w x) record
      [["emb"], ["k", "q"], ["fc"]] [[1], [1], [1]] fun _ => 2) = [3, 5, 8, 122] := by decide +kernel

end Brevitas.GpxqMode
