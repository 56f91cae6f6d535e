import Verif.Lemmas.Layerwise

/-!
# C92: layerwise quantisation replaces exactly the layers it is told to
-/

namespace Brevitas.Modules

/-- In a model in which no module has two names: after layerwise quantisation the name of every selected layer refers to a quantised layer
of the class it is mapped to, made from that layer; and every name that is not the name of a selected layer or of something inside one refers to
what it referred to before, which is of the same class and has not been replaced. -/
theorem C92_layerwise (h : Heap) (fuel root next : ℕ) (layerMap : String → Option (Option String)) (blacklist : List (List String))
    (hkeys : ∀ i, ((h i).children.map Prod.fst).Nodup)
    (hnames : ∀ p q i, resolve h root p = some i → resolve h root q = some i → p = q)
    (hfuel : ∀ p i, resolve h root p = some i → p.length < fuel)
    (hnext : ∀ p i, resolve h root p = some i → i < next)
    (hroot : layerMap (h root).cls = none) :
    (∀ p i c, Selected h root layerMap blacklist p i c →
      ∃ j, resolve (layerwise h fuel root next layerMap blacklist) root p = some j ∧
        layerwise h fuel root next layerMap blacklist j = ⟨c, [], some i⟩) ∧
    ∀ p, (∀ q i c, q <+: p → ¬ Selected h root layerMap blacklist q i c) →
      resolve (layerwise h fuel root next layerMap blacklist) root p = resolve h root p ∧
      ∀ i, resolve h root p = some i →
        (layerwise h fuel root next layerMap blacklist i).cls = (h i).cls ∧
        (layerwise h fuel root next layerMap blacklist i).origin = (h i).origin := by
  have key : ∀ (l : List (ℕ × String)), (∀ r ∈ l, ∃ p, Selected h root layerMap blacklist p r.1 r.2) →
      ∀ (done : List (List String × ℕ × String)) (s : Heap × ℕ), RewriteInv h root next done s →
      (∀ d ∈ done, Selected h root layerMap blacklist d.1 d.2.1 d.2.2) →
      ∃ done', RewriteInv h root next done' (l.foldl (replaceInstance fuel root) s) ∧
        (∀ d ∈ done', Selected h root layerMap blacklist d.1 d.2.1 d.2.2) ∧ (∀ d ∈ done, d ∈ done') ∧
        ∀ r ∈ l, ∃ p, (p, r.1, r.2) ∈ done' := by
    intro l
    induction l with
    | nil => intro _ done s I hd; exact ⟨done, I, hd, fun _ h => h, by simp⟩
    | cons r l ih =>
      intro hl done s I hd
      obtain ⟨p, hp⟩ := hl r (by simp)
      have hp0 : p ≠ [] := by
        rintro rfl
        have h1 := hp.here
        obtain rfl := Option.some.inj h1
        have h2 := hp.mapped
        rw [hroot] at h2
        exact absurd h2 (by simp)
      have hanti : ∀ d ∈ done, (d.1 <+: p ∨ p <+: d.1) → d = (p, r.1, r.2) := by
        intro d hdd hpre
        have hs := hd d hdd
        have heq : d.1 = p := by
          by_contra hne
          rcases hpre with h1 | h1
          · have := hp.topmost d.1 h1 hne d.2.1 hs.here
            rw [hs.mapped] at this
            exact absurd this (by simp)
          · have := hs.topmost p h1 (Ne.symm hne) r.1 hp.here
            rw [hp.mapped] at this
            exact absurd this (by simp)
        have h1 := hs.here
        rw [heq, hp.here] at h1
        have h2 : r.1 = d.2.1 := Option.some.inj h1
        have h3 := hs.mapped
        rw [← h2, hp.mapped] at h3
        have h4 : r.2 = d.2.2 := by simpa using h3
        rw [h2, h4, ← heq]
      obtain ⟨d1, hd1, I1⟩ := replaceInstance_inv (fuel := fuel) hnames hfuel hnext I p r.1 r.2 hp.here hp0 hanti
      obtain ⟨d2, I2, h2, h3, h4⟩ := ih (fun r hr => hl r (by simp [hr])) d1 _ I1 (by
        intro d hdd
        rcases (hd1 d).mp hdd with h | rfl
        · exact hd d h
        · exact hp)
      refine ⟨d2, I2, h2, fun d hdd => h3 d ((hd1 d).mpr (Or.inl hdd)), ?_⟩
      intro r' hr'
      rcases List.mem_cons.mp hr' with rfl | hr'
      · exact ⟨p, h3 _ ((hd1 _).mpr (Or.inr rfl))⟩
      · exact h4 r' hr'
  -- the rewriters are those of the selected layers
  set rs := (findModule h layerMap blacklist fuel [] root).filterMap fun i => (layerMap (h i).cls).join.map fun c => (i, c) with hrs
  have hmem : ∀ i c, (i, c) ∈ rs ↔ ∃ p, Selected h root layerMap blacklist p i c := by
    intro i c
    rw [hrs, List.mem_filterMap]
    constructor
    · rintro ⟨i', hi', hc⟩
      rw [Option.map_eq_some_iff] at hc
      obtain ⟨c', hc', heq⟩ := hc
      obtain ⟨rfl, rfl⟩ := Prod.mk.inj heq
      obtain ⟨t, h1, h2, h3, h4, h5⟩ := (findModule_mem hkeys hnames layerMap blacklist fuel [] root rfl _).mp hi'
      exact ⟨t, h2, Option.join_eq_some_iff.mp hc', h4, fun q hq hq' => by simpa using h5 q hq hq'⟩
    · rintro ⟨p, hp⟩
      refine ⟨i, (findModule_mem hkeys hnames layerMap blacklist fuel [] root rfl _).mpr
        ⟨p, hfuel _ _ hp.here, hp.here, by rw [hp.mapped]; rfl, hp.topmost, fun q hq hq' => by simpa using hp.allowed q hq hq'⟩, ?_⟩
      rw [hp.mapped]
      rfl
  have I0 : RewriteInv h root next [] (h, next) :=
    ⟨fun _ _ => rfl, by simp, fun _ _ => ⟨rfl, rfl⟩, hkeys, le_refl _⟩
  obtain ⟨done, I, h1, -, h2⟩ := key rs (fun r hr => (hmem r.1 r.2).mp hr) [] (h, next) I0 (by simp)
  have hlw : layerwise h fuel root next layerMap blacklist = (rs.foldl (replaceInstance fuel root) (h, next)).1 := rfl
  rw [hlw]
  constructor
  · intro p i c hp
    obtain ⟨p', hp'⟩ := h2 (i, c) ((hmem i c).mpr ⟨p, hp⟩)
    have : p' = p := hnames _ _ _ (h1 _ hp').here hp.here
    subst this
    obtain ⟨j, -, -, h3, h4⟩ := I.made _ hp'
    exact ⟨j, h3, h4⟩
  · intro p hp
    refine ⟨I.keep p fun d hd hpre => hp _ _ _ hpre (h1 d hd), fun i hi => I.same i (hnext _ _ hi)⟩

/-! ### A model -/

/-- A model with an embedding (not in the map), a block with a Linear and a Conv2d, and a Linear called `head`. -/
def exHeap : Heap
  | 0 => ⟨"Model", [("embed", 1), ("block", 2), ("head", 5)], none⟩
  | 1 => ⟨"Embedding", [], none⟩
  | 2 => ⟨"Block", [("fc", 3), ("conv", 4)], none⟩
  | 3 => ⟨"Linear", [], none⟩
  | 4 => ⟨"Conv2d", [], none⟩
  | 5 => ⟨"Linear", [], none⟩
  | _ => ⟨"", [], none⟩

/-- The map of layers: Conv2d is a key whose value is None, so it is left alone. -/
def exMap : String → Option (Option String)
  | "Linear" => some (some "QuantLinear")
  | "Conv2d" => some none
  | _ => none

theorem exHeap_resolve : ∀ p i, resolve exHeap 0 p = some i →
    (p, i) ∈ [([], 0), (["embed"], 1), (["block"], 2), (["head"], 5), (["block", "fc"], 3), (["block", "conv"], 4)] := by
  have leaf : ∀ i, (exHeap i).children = [] → ∀ p j, resolve exHeap i p = some j → p = [] ∧ j = i := by
    intro i hi p j hp
    cases p with
    | nil => exact ⟨rfl, (Option.some.inj hp).symm⟩
    | cons a p => rw [resolve] at hp; simp [child, hi] at hp
  have blk : ∀ p j, resolve exHeap 2 p = some j → (p, j) ∈ [([], 2), (["fc"], 3), (["conv"], 4)] := by
    intro p j hp
    cases p with
    | nil => obtain rfl := Option.some.inj hp; simp
    | cons a p =>
      rw [resolve, Option.bind_eq_some_iff] at hp
      obtain ⟨k, h1, h2⟩ := hp
      have := child_mem h1
      rw [show (exHeap 2).children = [("fc", 3), ("conv", 4)] from rfl] at this
      simp only [List.mem_cons, Prod.mk.injEq, List.not_mem_nil, or_false] at this
      rcases this with ⟨rfl, rfl⟩ | ⟨rfl, rfl⟩
      · obtain ⟨rfl, rfl⟩ := leaf 3 rfl _ _ h2; simp
      · obtain ⟨rfl, rfl⟩ := leaf 4 rfl _ _ h2; simp
  intro p i hp
  cases p with
  | nil => obtain rfl := Option.some.inj hp; simp
  | cons a p =>
    rw [resolve, Option.bind_eq_some_iff] at hp
    obtain ⟨k, h1, h2⟩ := hp
    have := child_mem h1
    rw [show (exHeap 0).children = [("embed", 1), ("block", 2), ("head", 5)] from rfl] at this
    simp only [List.mem_cons, Prod.mk.injEq, List.not_mem_nil, or_false] at this
    rcases this with ⟨rfl, rfl⟩ | ⟨rfl, rfl⟩ | ⟨rfl, rfl⟩
    · obtain ⟨rfl, rfl⟩ := leaf 1 rfl _ _ h2; simp
    · have := blk _ _ h2
      simp only [List.mem_cons, Prod.mk.injEq, List.not_mem_nil, or_false] at this
      rcases this with ⟨rfl, rfl⟩ | ⟨rfl, rfl⟩ | ⟨rfl, rfl⟩ <;> simp
    · obtain ⟨rfl, rfl⟩ := leaf 5 rfl _ _ h2; simp

/-- The hypotheses of the theorem hold of it. -/
example : (∀ i, ((exHeap i).children.map Prod.fst).Nodup) ∧
    (∀ p q i, resolve exHeap 0 p = some i → resolve exHeap 0 q = some i → p = q) ∧
    (∀ p i, resolve exHeap 0 p = some i → p.length < 3) ∧ (∀ p i, resolve exHeap 0 p = some i → i < 6) ∧ exMap (exHeap 0).cls = none := by
  refine ⟨?_, ?_, ?_, ?_, by decide +kernel⟩
  · intro i
    match i with
    | 0 => decide +kernel
    | 1 => decide +kernel
    | 2 => decide +kernel
    | 3 => decide +kernel
    | 4 => decide +kernel
    | 5 => decide +kernel
    | _ + 6 => exact List.nodup_nil
  · intro p q i hp hq
    have h1 := exHeap_resolve p i hp
    have h2 := exHeap_resolve q i hq
    simp only [List.mem_cons, Prod.mk.injEq, List.not_mem_nil, or_false] at h1 h2
    rcases h1 with ⟨rfl, rfl⟩ | ⟨rfl, rfl⟩ | ⟨rfl, rfl⟩ | ⟨rfl, rfl⟩ | ⟨rfl, rfl⟩ | ⟨rfl, rfl⟩ <;> simp_all
  · intro p i hp
    have h1 := exHeap_resolve p i hp
    simp only [List.mem_cons, Prod.mk.injEq, List.not_mem_nil, or_false] at h1
    rcases h1 with ⟨rfl, rfl⟩ | ⟨rfl, rfl⟩ | ⟨rfl, rfl⟩ | ⟨rfl, rfl⟩ | ⟨rfl, rfl⟩ | ⟨rfl, rfl⟩ <;> simp
  · intro p i hp
    have h1 := exHeap_resolve p i hp
    simp only [List.mem_cons, Prod.mk.injEq, List.not_mem_nil, or_false] at h1
    rcases h1 with ⟨rfl, rfl⟩ | ⟨rfl, rfl⟩ | ⟨rfl, rfl⟩ | ⟨rfl, rfl⟩ | ⟨rfl, rfl⟩ | ⟨rfl, rfl⟩ <;> simp

/-- With `head` on the black list, `block.fc` is replaced, and `head` and the Conv2d stay. -/
example :
    let h' := layerwise exHeap 3 0 6 exMap [["head"]]
    (resolve h' 0 ["block", "fc"] = some 6 ∧ h' 6 = ⟨"QuantLinear", [], some 3⟩) ∧ resolve h' 0 ["head"] = some 5 ∧
      resolve h' 0 ["block", "conv"] = some 4 ∧ (h' 4).cls = "Conv2d" := by decide +kernel

/-! ### Modules with several names, and the model itself -/

/-- A layer that is registered twice in a module. -/
def sharedHeap : Heap
  | 0 => ⟨"Model", [("encoder", 1), ("decoder", 1)], none⟩
  | 1 => ⟨"Linear", [], none⟩
  | _ => ⟨"", [], none⟩

/-- It is replaced under its first name only: under the second the floating point layer remains. -/
theorem C92_shared_in_one_module_stays_float :
    let h' := layerwise sharedHeap 3 0 2 exMap []
    (resolve h' 0 ["encoder"] = some 2 ∧ h' 2 = ⟨"QuantLinear", [], some 1⟩) ∧
      (resolve h' 0 ["decoder"] = some 1 ∧ (h' 1).cls = "Linear" ∧ (h' 1).origin = none) := by decide +kernel

/-- A layer that is registered in two modules. -/
def tiedHeap : Heap
  | 0 => ⟨"Model", [("a", 1), ("b", 2)], none⟩
  | 1 => ⟨"Block", [("fc", 3)], none⟩
  | 2 => ⟨"Block", [("fc", 3)], none⟩
  | 3 => ⟨"Linear", [], none⟩
  | _ => ⟨"", [], none⟩

/-- It is replaced under both names, by two different layers: their parameters are no longer tied. -/
theorem C92_shared_in_two_modules_is_untied :
    let h' := layerwise tiedHeap 4 0 4 exMap []
    resolve tiedHeap 0 ["a", "fc"] = resolve tiedHeap 0 ["b", "fc"] ∧
      (resolve h' 0 ["a", "fc"] = some 4 ∧ h' 4 = ⟨"QuantLinear", [], some 3⟩) ∧
      (resolve h' 0 ["b", "fc"] = some 5 ∧ h' 5 = ⟨"QuantLinear", [], some 3⟩) := by decide +kernel

/-- If one of its names is on the black list, it is the black listed name that gets the quantised layer, and the other one keeps the floating point
layer. -/
theorem C92_blacklisted_alias_is_replaced :
    let h' := layerwise tiedHeap 4 0 4 exMap [["a", "fc"]]
    (resolve h' 0 ["a", "fc"] = some 4 ∧ h' 4 = ⟨"QuantLinear", [], some 3⟩) ∧
      (resolve h' 0 ["b", "fc"] = some 3 ∧ (h' 3).cls = "Linear" ∧ (h' 3).origin = none) := by decide +kernel

/-- A model that is a layer. -/
def layerHeap : Heap
  | 0 => ⟨"Linear", [], none⟩
  | _ => ⟨"", [], none⟩

/-- It is not replaced: the quantised layer becomes a child of it, with the empty name. -/
theorem C92_layer_itself_not_replaced :
    let h' := layerwise layerHeap 2 0 1 exMap []
    (h' 0).cls = "Linear" ∧ (h' 0).children = [("", 1)] ∧ h' 1 = ⟨"QuantLinear", [], some 0⟩ := by decide +kernel

/-- A name on the black list protects everything inside it. -/
theorem C92_blacklist_covers_inside (h : Heap) (root : ℕ) (layerMap : String → Option (Option String)) (blacklist : List (List String))
    (b p : List String) (hb : b ∈ blacklist) (hb0 : b ≠ []) (hp : b <+: p) (i : ℕ) (c : String) : ¬ Selected h root layerMap blacklist p i c :=
  fun hs => hs.allowed b hp hb0 hb

example : ["block"] <+: ["block", "fc"] := by decide

end Brevitas.Modules
