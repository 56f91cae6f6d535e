import Verif.Model.FnToModule
import Mathlib.Data.List.Nodup
import Mathlib.Data.Rat.Floor

/-!
# C87: turning calls of functions into calls of modules does not change what they compute
-/

namespace Brevitas.FnToModule

open Brevitas.Spec

variable {C V α β : Type*}

/-! ### Binding -/

private theorem addKeywords_spec (params : List String) (kw acc b : List (String × α)) (h : addKeywords params acc kw = some b)
    (hn : (acc.map Prod.fst).Nodup) :
    (b.map Prod.fst).Nodup ∧ (∀ k ∈ b.map Prod.fst, k ∈ acc.map Prod.fst ∨ k ∈ params) ∧ ∀ k ∈ acc.map Prod.fst, k ∈ b.map Prod.fst := by
  induction kw generalizing acc with
  | nil =>
    simp only [addKeywords, Option.some.injEq] at h
    subst h
    exact ⟨hn, fun k hk => .inl hk, fun k hk => hk⟩
  | cons e kw ih =>
    obtain ⟨k, v⟩ := e
    unfold addKeywords at h
    by_cases hc : k ∉ params ∨ k ∈ acc.map Prod.fst
    · rw [if_pos hc] at h; cases h
    · rw [if_neg hc] at h
      push Not at hc
      have hn' : ((acc ++ [(k, v)]).map Prod.fst).Nodup := by
        rw [List.map_append, List.nodup_append]
        refine ⟨hn, by simp, ?_⟩
        intro a ha b hb
        simp only [List.map_cons, List.map_nil, List.mem_singleton] at hb
        rintro rfl
        exact hc.2 (hb ▸ ha)
      obtain ⟨h1, h2, h3⟩ := ih _ h hn'
      refine ⟨h1, fun k' hk' => ?_, fun k' hk' => h3 k' (by rw [List.map_append]; simp only [List.mem_append]; exact .inl hk')⟩
      rcases h2 k' hk' with h' | h'
      · rw [List.map_append, List.mem_append] at h'
        rcases h' with h' | h'
        · exact .inl h'
        · simp only [List.map_cons, List.map_nil, List.mem_singleton] at h'
          exact .inr (h' ▸ hc.1)
      · exact .inr h'

private theorem addDefaults_spec (default : String → Option α) (ps : List String) (acc b : List (String × α))
    (h : addDefaults default ps acc = some b) (hn : (acc.map Prod.fst).Nodup) :
    (b.map Prod.fst).Nodup ∧ (∀ k ∈ b.map Prod.fst, k ∈ acc.map Prod.fst ∨ k ∈ ps) ∧ (∀ k ∈ acc.map Prod.fst, k ∈ b.map Prod.fst) ∧
      ∀ p ∈ ps, p ∈ b.map Prod.fst := by
  induction ps generalizing acc with
  | nil =>
    simp only [addDefaults, Option.some.injEq] at h
    subst h
    exact ⟨hn, fun k hk => .inl hk, fun k hk => hk, by simp⟩
  | cons p ps ih =>
    unfold addDefaults at h
    by_cases hp : p ∈ acc.map Prod.fst
    · rw [if_pos hp] at h
      obtain ⟨h1, h2, h3, h4⟩ := ih acc h hn
      refine ⟨h1, fun k hk => ?_, h3, fun q hq => ?_⟩
      · rcases h2 k hk with h' | h'
        · exact .inl h'
        · exact .inr (by simp [h'])
      · rcases List.mem_cons.mp hq with rfl | hq
        · exact h3 _ hp
        · exact h4 q hq
    · rw [if_neg hp] at h
      cases hd : default p with
      | none => rw [hd] at h; cases h
      | some d =>
        rw [hd] at h
        dsimp only at h
        have hn' : ((acc ++ [(p, d)]).map Prod.fst).Nodup := by
          rw [List.map_append, List.nodup_append]
          refine ⟨hn, by simp, ?_⟩
          intro a ha b hb
          simp only [List.map_cons, List.map_nil, List.mem_singleton] at hb
          rintro rfl
          exact hp (hb ▸ ha)
        obtain ⟨h1, h2, h3, h4⟩ := ih _ h hn'
        have hmem : ∀ k, k ∈ (acc ++ [(p, d)]).map Prod.fst ↔ k ∈ acc.map Prod.fst ∨ k = p := by
          intro k; rw [List.map_append, List.mem_append]; simp
        refine ⟨h1, fun k hk => ?_, fun k hk => h3 k ((hmem k).mpr (.inl hk)), fun q hq => ?_⟩
        · rcases h2 k hk with h' | h'
          · rcases (hmem k).mp h' with h' | rfl
            · exact .inl h'
            · exact .inr (by simp)
          · exact .inr (by simp [h'])
        · rcases List.mem_cons.mp hq with rfl | hq
          · exact h3 _ ((hmem _).mpr (.inr rfl))
          · exact h4 q hq

private theorem zip_keys (ps : List String) (as : List α) (h : as.length ≤ ps.length) :
    (ps.zip as).map Prod.fst = ps.take as.length := by
  induction ps generalizing as with
  | nil => simp at h; subst h; rfl
  | cons p ps ih =>
    cases as with
    | nil => rfl
    | cons a as => simp [ih as (by simpa using h)]

private theorem bind_spec (s : Signature α) (hnd : s.params.Nodup) (args : List α) (kwargs b : List (String × α))
    (h : s.bind args kwargs = some b) : (b.map Prod.fst).Nodup ∧ ∀ k, k ∈ b.map Prod.fst ↔ k ∈ s.params := by
  unfold Signature.bind at h
  by_cases hl : s.params.length < args.length
  · rw [if_pos hl] at h; cases h
  · rw [if_neg hl, Option.bind_eq_some_iff] at h
    obtain ⟨m, hm, hb⟩ := h
    have hz := zip_keys s.params args (by omega)
    obtain ⟨h1, h2, -⟩ := addKeywords_spec _ _ _ _ hm (by rw [hz]; exact hnd.sublist (List.take_sublist _ _))
    obtain ⟨h4, h5, -, h7⟩ := addDefaults_spec _ _ _ _ hb h1
    refine ⟨h4, fun k => ⟨fun hk => ?_, h7 k⟩⟩
    rcases h5 k hk with h' | h'
    · rcases h2 k h' with h'' | h''
      · rw [hz] at h''; exact List.mem_of_mem_take h''
      · exact h''
    · exact h'

private def mapV (f : α → β) (d : List (String × α)) : List (String × β) := d.map fun e => (e.1, f e.2)

private theorem mapV_keys (f : α → β) (d : List (String × α)) : (mapV f d).map Prod.fst = d.map Prod.fst := by
  simp [mapV, Function.comp_def]

private theorem addKeywords_map (f : α → β) (params : List String) (kw acc : List (String × α)) :
    addKeywords params (mapV f acc) (mapV f kw) = (addKeywords params acc kw).map (mapV f) := by
  induction kw generalizing acc with
  | nil => rfl
  | cons e kw ih =>
    obtain ⟨k, v⟩ := e
    show addKeywords params (mapV f acc) ((k, f v) :: mapV f kw) = _
    unfold addKeywords
    rw [mapV_keys]
    by_cases hc : k ∉ params ∨ k ∈ acc.map Prod.fst
    · rw [if_pos hc, if_pos hc]; rfl
    · rw [if_neg hc, if_neg hc, ← ih]
      simp [mapV]

private theorem addDefaults_map (f : α → β) (default : String → Option α) (ps : List String) (acc : List (String × α)) :
    addDefaults (fun p => (default p).map f) ps (mapV f acc) = (addDefaults default ps acc).map (mapV f) := by
  induction ps generalizing acc with
  | nil => rfl
  | cons p ps ih =>
    unfold addDefaults
    rw [mapV_keys]
    by_cases hp : p ∈ acc.map Prod.fst
    · rw [if_pos hp, if_pos hp, ih]
    · rw [if_neg hp, if_neg hp]
      cases hd : default p with
      | none => rfl
      | some d =>
        simp only [Option.map_some]
        rw [← ih]
        simp [mapV]

private theorem bind_map (f : α → β) (s : Signature α) (args : List α) (kwargs : List (String × α)) :
    (⟨s.params, fun p => (s.default p).map f⟩ : Signature β).bind (args.map f) (kwargs.map fun e => (e.1, f e.2)) =
      (s.bind args kwargs).map (mapV f) := by
  unfold Signature.bind
  dsimp only
  rw [List.length_map]
  by_cases hl : s.params.length < args.length
  · rw [if_pos hl, if_pos hl]; rfl
  · rw [if_neg hl, if_neg hl]
    have hz : s.params.zip (args.map f) = mapV f (s.params.zip args) := by
      rw [mapV, List.zip_map_right]; rfl
    rw [hz, show (kwargs.map fun e => (e.1, f e.2)) = mapV f kwargs from rfl, addKeywords_map]
    cases addKeywords s.params (s.params.zip args) kwargs with
    | none => rfl
    | some m => simp only [Option.map_some, Option.bind_some]; exact addDefaults_map f s.default s.params m

private theorem look_mapV (f : α → β) (d : List (String × α)) (k : String) : look (mapV f d) k = (look d k).map f := by
  induction d with
  | nil => rfl
  | cons e d ih =>
    by_cases h : e.1 = k
    · simp [look, mapV, h]
    · have h1 : look (mapV f (e :: d)) k = look (mapV f d) k := by simp [look, mapV, h]
      have h2 : look (e :: d) k = look d k := by simp [look, h]
      rw [h1, h2, ih]

private theorem look_filter (p : String → Bool) (d : List (String × α)) (k : String) :
    look (d.filter fun e => p e.1) k = if p k then look d k else none := by
  induction d with
  | nil => simp [look]
  | cons e d ih =>
    rw [List.filter_cons]
    by_cases h : e.1 = k
    · by_cases hp : p k = true
      · rw [if_pos (by rw [h]; exact hp), if_pos hp]
        simp [look, h]
      · rw [if_neg (by rw [h]; exact hp), ih, if_neg hp, if_neg hp]
    · have h2 : look (e :: d) k = look d k := by simp [look, h]
      by_cases hp : p e.1 = true
      · rw [if_pos hp, h2, ← ih]; simp [look, h]
      · rw [if_neg hp, ih, h2]

private theorem look_isSome (d : List (String × α)) (k : String) : (look d k).isSome ↔ k ∈ d.map Prod.fst := by
  unfold look
  rw [Option.isSome_map, List.find?_isSome]
  constructor
  · rintro ⟨e, he, h⟩
    have : e.1 = k := by simpa using h
    exact this ▸ List.mem_map_of_mem he
  · intro h
    obtain ⟨e, he, rfl⟩ := List.mem_map.mp h
    exact ⟨e, he, by simp⟩

private theorem look_mem {d : List (String × α)} {k : String} {v : α} (h : look d k = some v) : (k, v) ∈ d := by
  unfold look at h
  rw [Option.map_eq_some_iff] at h
  obtain ⟨e, he, rfl⟩ := h
  have h1 := List.mem_of_find?_eq_some he
  have h2 : e.1 = k := by simpa using List.find?_some he
  rw [← h2]; exact h1

private theorem mem_look {d : List (String × α)} (hn : (d.map Prod.fst).Nodup) {k : String} {v : α} (h : (k, v) ∈ d) : look d k = some v := by
  induction d with
  | nil => simp at h
  | cons e d ih =>
    rw [List.map_cons, List.nodup_cons] at hn
    rcases List.mem_cons.mp h with rfl | h
    · simp [look]
    · have hne : e.1 ≠ k := by
        intro h'; exact hn.1 (h' ▸ List.mem_map_of_mem (f := Prod.fst) h)
      have := ih hn.2 h
      simpa [look, hne] using this

/-- The class does what the function does: an instance constructed with a value for every parameter of the function except the tensor and
`training` computes, in each mode, what the function computes with these values and `training` set to the mode. -/
def Implements (input : String) (rest : List String) (ofBool : Bool → C) (fn : (String → Option (EVal V C)) → Option V)
    (mod : (String → Option C) → Bool → V → Option V) : Prop :=
  ∀ (c : String → Option C) (mode : Bool) (x : V), (∀ k, (c k).isSome ↔ k ∈ rest ∧ k ≠ "training") →
    mod c mode x = fn fun p =>
      if p = input then some (.tensor x)
      else if p = "training" ∧ "training" ∈ rest then some (.const (ofBool mode))
      else (c p).map .const

/-- C87: a call of a function whose tensor is a node of the graph and whose other arguments are constants, in any mixture of
positional, keyword and default arguments and in any order, is turned into a call of a module on the same tensor, constructed with the
values of the call; it computes the same, for every function that the class implements. Not so: a `training` argument that is not the mode the
module is run in (`C87_training_ignored`), functions without a readable signature (`C87_builtin_raises`), arguments other than the tensor
that are nodes (`C87_node_parameter_raises`), and what an in-place function does to its argument, which has no counterpart here. -/
theorem C87_function (sig : Signature (Val C)) (input : String) (rest keys required : List String) (ofBool : Bool → C)
    (fn : (String → Option (EVal V C)) → Option V) (mod : (String → Option C) → Bool → V → Option V)
    (hparams : sig.params = input :: rest) (hnd : sig.params.Nodup) (hin : input ∉ keys) (hit : input ≠ "training")
    (hkeys : ∀ p ∈ rest, p ≠ "training" → p ∈ keys) (hreq : ∀ k ∈ required, k ∈ rest ∧ k ≠ "training")
    (himpl : Implements input rest ofBool fn mod)
    (args : List (Val C)) (kwargs b : List (String × Val C)) (hb : sig.bind args kwargs = some b) (n : ℕ)
    (hx : look b input = some (.node n)) (hconst : ∀ e ∈ b, e.1 ≠ input → e.2.isNode = false) (mode : Bool)
    (htrain : "training" ∈ rest → look b "training" = some (.const (ofBool mode))) (env : ℕ → V) :
    ∃ r, rewriteNode (some sig) keys required args kwargs = some r ∧
      callModule input mod mode env r = callFn sig fn env args kwargs := by
  obtain ⟨hbn, hbk⟩ := bind_spec sig hnd args kwargs b hb
  have hxmem := look_mem hx
  have hrn : input ∉ rest := by rw [hparams] at hnd; exact (List.nodup_cons.mp hnd).1
  -- the arguments are split into the tensor and the rest
  obtain ⟨as, kw, hmove, hkwlook, hcase⟩ : ∃ as kw, moveArgs (some sig) args kwargs = (as, kw) ∧
      (∀ k, k ≠ input → look kw k = look b k) ∧ ((as = [.node n] ∧ ∀ e ∈ kw, e ∈ b ∧ e.1 ≠ input) ∨ (as = [] ∧ kw = b)) := by
    unfold moveArgs
    simp only [Option.bind_some, hb]
    cases hbc : b with
    | nil => rw [hbc] at hxmem; simp at hxmem
    | cons e b' =>
      by_cases he : e.1 = input
      · have hev : e = (input, .node n) := by
          have : look b e.1 = some e.2 := mem_look hbn (by rw [hbc]; simp)
          rw [he, hx] at this
          exact Prod.ext he (Option.some.inj this).symm
        have hb'n : ∀ a ∈ b', a.1 ≠ input := by
          intro a ha h'
          rw [hbc, List.map_cons, List.nodup_cons] at hbn
          exact hbn.1 (by rw [he, ← h']; exact List.mem_map_of_mem ha)
        have hb'c : ∀ a ∈ b', a.2.isNode = false := fun a ha => hconst a (by rw [hbc]; simp [ha]) (hb'n a ha)
        have htw : (b'.takeWhile fun e => e.2.isNode) = [] ∧ (b'.dropWhile fun e => e.2.isNode) = b' := by
          cases b' with
          | nil => exact ⟨rfl, rfl⟩
          | cons a b'' =>
            have := hb'c a (by simp)
            simp [this]
        have hen : e.2.isNode = true := by rw [hev]; rfl
        rw [List.takeWhile_cons, List.dropWhile_cons, if_pos hen, if_pos hen, htw.1, htw.2]
        refine ⟨_, _, rfl, fun k hk => ?_, .inl ⟨by rw [hev]; rfl, fun a ha => ⟨by simp [ha], hb'n a ha⟩⟩⟩
        have : ¬e.1 = k := by rw [he]; exact fun h => hk h.symm
        simp [look, this]
      · have hen : ¬e.2.isNode = true := by
          have := hconst e (by rw [hbc]; simp) he
          simp [this]
        rw [List.takeWhile_cons, List.dropWhile_cons, if_neg hen, if_neg hen]
        exact ⟨_, _, rfl, fun _ _ => rfl, .inr ⟨rfl, rfl⟩⟩
  -- constructor arguments
  have hkey_rest : ∀ k, k ∈ b.map Prod.fst → k ≠ input → k ∈ rest := by
    intro k hk hne
    have := (hbk k).mp hk
    rw [hparams] at this
    rcases List.mem_cons.mp this with h' | h'
    · exact absurd h' hne
    · exact h'
  obtain ⟨ctor, hctor⟩ : ∃ ctor, ctor = (kw.filter fun e => e.1 != "training").filter fun e => decide (e.1 ∈ keys) := ⟨_, rfl⟩
  have hclook : ∀ k, look ctor k = if k ∈ rest ∧ k ≠ "training" then look b k else none := by
    intro k
    rw [hctor, look_filter (fun k => decide (k ∈ keys)), look_filter (fun k => k != "training")]
    by_cases hk : k ∈ rest ∧ k ≠ "training"
    · rw [if_pos hk, if_pos (by simpa using hkeys k hk.1 hk.2), if_pos (by simpa using hk.2)]
      exact hkwlook k (fun h => hrn (h ▸ hk.1))
    · rw [if_neg hk]
      by_cases h1 : k ∈ keys
      · rw [if_pos (by simpa using h1)]
        by_cases h2 : k = "training"
        · rw [if_neg (by simpa using h2)]
        · rw [if_pos (by simpa using h2)]
          have hki : k ≠ input := fun h => hin (h ▸ h1)
          rw [hkwlook k hki]
          cases hl : look b k with
          | none => rfl
          | some v =>
            have : (look b k).isSome := by rw [hl]; rfl
            exact absurd ⟨hkey_rest k ((look_isSome b k).mp this) hki, h2⟩ hk
      · rw [if_neg (by simpa using h1)]
  have hcsub : ∀ e ∈ ctor, e ∈ b ∧ e.1 ≠ input := by
    intro e he
    rw [hctor, List.mem_filter, List.mem_filter] at he
    have h1 : e.1 ≠ input := fun h => hin (by rw [← h]; simpa using he.2)
    rcases hcase with ⟨_, h⟩ | ⟨_, h⟩
    · exact h e he.1.1
    · exact ⟨h ▸ he.1.1, h1⟩
  refine ⟨⟨ctor, as, (kw.filter fun e => e.1 != "training").filter fun e => decide (e.1 ∉ keys)⟩, ?_, ?_⟩
  · unfold rewriteNode fnMoveArgs
    rw [hmove]
    dsimp only
    rw [← hctor, if_pos]
    rw [List.all_eq_true]
    intro k hk
    obtain ⟨h1, h2⟩ := hreq k hk
    rw [decide_eq_true_eq, ← look_isSome, hclook k, if_pos ⟨h1, h2⟩, look_isSome, hbk, hparams]
    simp [h1]
  · unfold callModule
    rw [if_pos (by
      rw [List.all_eq_true]
      intro e he
      obtain ⟨h1, h2⟩ := hcsub e he
      simp [hconst e h1 h2])]
    dsimp only
    -- the call binds the tensor
    have hbind : ((⟨[input], fun _ => none⟩ : Signature (EVal V C)).bind (as.map (Val.eval env))
        (((kw.filter fun e => e.1 != "training").filter fun e => decide (e.1 ∉ keys)).map fun e => (e.1, e.2.eval env))) =
        some [(input, .tensor (env n))] := by
      rcases hcase with ⟨rfl, h⟩ | ⟨rfl, rfl⟩
      · have : ((kw.filter fun e => e.1 != "training").filter fun e => decide (e.1 ∉ keys)) = [] := by
          rw [List.filter_eq_nil_iff]
          intro e he h'
          rw [List.mem_filter] at he
          obtain ⟨h1, h2⟩ := h e he.1
          have h3 : e.1 ∉ keys := by simpa using h'
          exact h3 (hkeys e.1 (hkey_rest e.1 (List.mem_map_of_mem h1) h2) (by simpa using he.2))
        rw [this]
        simp [Signature.bind, addKeywords, addDefaults, Val.eval]
      · have : ((kw.filter fun e => e.1 != "training").filter fun e => decide (e.1 ∉ keys)) = [(input, .node n)] := by
          rw [List.filter_filter]
          have hp : ∀ e ∈ kw, ((decide (e.1 ∉ keys) && (e.1 != "training")) = true ↔ e.1 = input) := by
            intro e he
            constructor
            · intro h'
              by_contra hne
              simp only [Bool.and_eq_true, decide_eq_true_eq, bne_iff_ne, ne_eq] at h'
              exact h'.1 (hkeys e.1 (hkey_rest e.1 (List.mem_map_of_mem he) hne) h'.2)
            · intro h'
              simp [h', hin, hit]
          have hflt : (kw.filter fun e => decide (e.1 ∉ keys) && (e.1 != "training")) = kw.filter fun e => e.1 == input := by
            apply List.filter_congr
            intro e he
            rw [Bool.eq_iff_iff, hp e he]; simp
          rw [hflt]
          clear hflt hp hb hconst hbk hkey_rest hctor hclook hcsub hmove hkwlook htrain
          induction kw with
          | nil => simp at hxmem
          | cons e kw ih =>
            rw [List.map_cons, List.nodup_cons] at hbn
            rw [List.filter_cons]
            by_cases he : e.1 = input
            · rw [if_pos (by simpa using he)]
              have hev : e = (input, .node n) := by
                have : look (e :: kw) input = some e.2 := by simp [look, he]
                rw [hx] at this
                exact Prod.ext he (Option.some.inj this).symm
              have : (kw.filter fun e => e.1 == input) = [] := by
                rw [List.filter_eq_nil_iff]
                intro a ha h'
                have h'' : a.1 = input := by simpa using h'
                exact hbn.1 (by rw [he, ← h'']; exact List.mem_map_of_mem ha)
              rw [this, hev]
            · rw [if_neg (by simpa using he)]
              have : look kw input = some (.node n) := by simpa [look, he] using hx
              exact ih this hbn.2 (look_mem this)
        rw [this]
        simp [Signature.bind, addKeywords, addDefaults, Val.eval]
    rw [hbind]
    simp only [Option.bind_some]
    rw [show look [(input, EVal.tensor (C := C) (env n))] input = some (.tensor (env n)) by simp [look]]
    dsimp only
    have hval : ∀ k, k ∈ rest → ∃ c, look b k = some (.const c) := by
      intro k hk
      have h1 : (look b k).isSome := by
        rw [look_isSome, hbk, hparams]; simp [hk]
      obtain ⟨v, hv⟩ := Option.isSome_iff_exists.mp h1
      have := hconst _ (look_mem hv) (fun h => hrn (h ▸ hk))
      cases v with
      | node m => simp [Val.isNode] at this
      | const c => exact ⟨c, hv⟩
    rw [himpl]
    · unfold callFn
      rw [bind_map, hb]
      simp only [Option.map_some, Option.bind_some]
      congr 1
      funext p
      rw [look_mapV]
      by_cases h1 : p = input
      · rw [if_pos h1, h1, hx]; rfl
      · rw [if_neg h1]
        by_cases h2 : p = "training" ∧ "training" ∈ rest
        · rw [if_pos h2, h2.1, htrain h2.2]; rfl
        · rw [if_neg h2, hclook p]
          by_cases h3 : p ∈ rest
          · have h4 : p ≠ "training" := fun h => h2 ⟨h, h ▸ h3⟩
            obtain ⟨c, hc⟩ := hval p h3
            rw [if_pos ⟨h3, h4⟩, hc]; rfl
          · rw [if_neg (fun h => h3 h.1)]
            have : look b p = none := by
              rw [← Option.not_isSome_iff_eq_none, look_isSome, hbk, hparams]
              simp [h1, h3]
            rw [this]; rfl
    · intro k
      rw [hclook k]
      by_cases hk : k ∈ rest ∧ k ≠ "training"
      · rw [if_pos hk]
        obtain ⟨c, hc⟩ := hval k hk.1
        rw [hc]; simp [hk]
      · rw [if_neg hk]; simp [hk]

/-! ### Where it does not hold -/

/-- A function with an argument the graph computes, `f(x, n)`, is turned into a module called with two tensors, which raises for every class. -/
theorem C87_node_parameter_raises (sig : Signature (Val C)) (input p : String) (rest keys : List String)
    (hparams : sig.params = input :: p :: rest) (x n : ℕ) (b : List (String × Val C))
    (hb : sig.bind [.node x, .node n] [] = some b) (mod : (String → Option C) → Bool → V → Option V) (mode : Bool) (env : ℕ → V)
    (r : Rewritten C) (hr : rewriteNode (some sig) keys [] [.node x, .node n] [] = some r) : callModule input mod mode env r = none := by
  obtain ⟨d, hd⟩ : ∃ d, b = (input, .node x) :: (p, .node n) :: d := by
    unfold Signature.bind at hb
    rw [if_neg (by rw [hparams]; simp)] at hb
    rw [hparams] at hb
    simp only [List.zip_cons_cons, List.zip_nil_right, addKeywords, Option.bind_some] at hb
    have hpre : ∀ (ps : List String) (acc b : List (String × Val C)), addDefaults sig.default ps acc = some b → ∃ d, b = acc ++ d := by
      intro ps
      induction ps with
      | nil =>
        intro acc b h
        simp only [addDefaults, Option.some.injEq] at h
        exact ⟨[], by simp [h]⟩
      | cons q ps ih =>
        intro acc b h
        unfold addDefaults at h
        by_cases hq : q ∈ acc.map Prod.fst
        · rw [if_pos hq] at h; exact ih acc b h
        · rw [if_neg hq] at h
          cases hdq : sig.default q with
          | none => rw [hdq] at h; cases h
          | some v =>
            rw [hdq] at h
            obtain ⟨d, hd⟩ := ih _ b h
            exact ⟨(q, v) :: d, by rw [hd]; simp⟩
    obtain ⟨d, hd⟩ := hpre _ _ _ hb
    exact ⟨d, by rw [hd]; rfl⟩
  unfold rewriteNode fnMoveArgs moveArgs at hr
  simp only [Option.bind_some, hb, hd, List.all_nil, if_true, Option.some.injEq] at hr
  subst hr
  unfold callModule
  split
  · have : ∀ (l kw : List (EVal V C)) (a c : EVal V C) (kws : List (String × EVal V C)),
        (⟨[input], fun _ => none⟩ : Signature (EVal V C)).bind (a :: c :: l) kws = none := by
      intro l _ a c kws
      unfold Signature.bind
      rw [if_pos (by simp)]
    simp only [List.takeWhile_cons, Val.isNode, if_true, List.map_cons]
    rw [this _ []]
    rfl
  · rfl

/-- A built-in function without a readable signature, with a positional constant, as `F.leaky_relu_(x, 0.2)`: the constant stays an argument
of the call and the module raises, for every class. -/
theorem C87_builtin_raises (input : String) (keys : List String) (x : ℕ) (c : C) (mod : (String → Option C) → Bool → V → Option V)
    (mode : Bool) (env : ℕ → V) :
    (rewriteNode none keys [] [.node x, .const c] []).bind (callModule input mod mode env) = none := by
  rfl

/-- `F.dropout(input, p=0.5, training=True, inplace=False)`. -/
private def dropoutSig : Signature (Val ℚ) where
  params := ["input", "p", "training", "inplace"]
  default
    | "p" => some (.const (1 / 2))
    | "training" => some (.const 1)
    | "inplace" => some (.const 0)
    | _ => none

/-- Dropout with a mask that keeps the value. -/
private def dropoutFn (b : String → Option (EVal ℚ ℚ)) : Option ℚ :=
  match b "input", b "p", b "training" with
  | some (.tensor x), some (.const p), some (.const t) => some (if t = 1 then x / (1 - p) else x)
  | _, _, _ => none

private def dropoutModule (c : String → Option ℚ) (mode : Bool) (x : ℚ) : Option ℚ :=
  match c "p" with
  | some p => some (if mode then x / (1 - p) else x)
  | none => none

private theorem dropout_implements :
    Implements "input" ["p", "training", "inplace"] (fun m => if m then (1 : ℚ) else 0) dropoutFn dropoutModule := by
  intro c mode x _
  unfold dropoutFn dropoutModule
  generalize hc : c "p" = cp
  cases cp <;> cases mode <;> simp [hc]

/-- `F.dropout(x)` drops values whatever the mode of the model; the module that replaces it does so only in training mode. -/
theorem C87_training_ignored :
    ∃ r, rewriteNode (some dropoutSig) ["p", "inplace"] [] [.node 0] [] = some r ∧
      callFn dropoutSig dropoutFn (fun _ => 3) [.node 0] [] = some 6 ∧
      callModule "input" dropoutModule false (fun _ => 3) r = some 3 := by
  refine ⟨⟨[("p", .const (1 / 2)), ("inplace", .const 0)], [.node 0], []⟩, ?_, ?_, ?_⟩ <;> decide +kernel

/-! ### Concrete cases -/

/-- `F.dropout(training=False, input=x, p=0.25)`: keywords in another order; the theorem applies, in evaluation mode. -/
example : ∃ r, rewriteNode (some dropoutSig) ["p", "inplace"] [] [] [("training", .const 0), ("input", .node 7), ("p", .const (1 / 4))] = some r ∧
    callModule "input" dropoutModule false (fun n => n) r =
      callFn dropoutSig dropoutFn (fun n => (n : ℚ)) [] [("training", .const 0), ("input", .node 7), ("p", .const (1 / 4))] :=
  C87_function dropoutSig "input" ["p", "training", "inplace"] ["p", "inplace"] [] (fun m => if m then (1 : ℚ) else 0) dropoutFn
    dropoutModule rfl (by decide) (by decide) (by decide) (by decide) (by decide) dropout_implements _ _
    [("training", .const 0), ("input", .node 7), ("p", .const (1 / 4)), ("inplace", .const 0)] (by decide +kernel) 7 (by decide +kernel)
    (by decide +kernel) false (fun _ => by decide +kernel) _

/-- `F.dropout(x, 0.25)` in training mode: positional arguments, `training` by default. -/
example : ∃ r, rewriteNode (some dropoutSig) ["p", "inplace"] [] [.node 7, .const (1 / 4)] [] = some r ∧
    callModule "input" dropoutModule true (fun n => n) r = callFn dropoutSig dropoutFn (fun n => (n : ℚ)) [.node 7, .const (1 / 4)] [] :=
  C87_function dropoutSig "input" ["p", "training", "inplace"] ["p", "inplace"] [] (fun m => if m then (1 : ℚ) else 0) dropoutFn
    dropoutModule rfl (by decide) (by decide) (by decide) (by decide) (by decide) dropout_implements _ _
    [("input", .node 7), ("p", .const (1 / 4)), ("training", .const 1), ("inplace", .const 0)] (by decide +kernel) 7 (by decide +kernel)
    (by decide +kernel) true (fun _ => by decide +kernel) _

/-- The value both give in the last example: 7 / (1 - 1/4). -/
example : callFn dropoutSig dropoutFn (fun n => (n : ℚ)) [.node 7, .const (1 / 4)] [] = some (28 / 3) := by decide +kernel

/-- `F.dropout(x, p)` with a computed `p` meets the hypotheses of `C87_node_parameter_raises`. -/
example : ∃ b r, dropoutSig.bind [.node 0, .node 1] [] = some b ∧
    rewriteNode (some dropoutSig) ["p", "inplace"] [] [.node 0, .node 1] [] = some r := by
  exact ⟨[("input", .node 0), ("p", .node 1), ("training", .const 1), ("inplace", .const 0)], _, by decide +kernel, rfl⟩

end Brevitas.FnToModule
