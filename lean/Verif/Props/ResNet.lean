import Verif.Lemmas.Stage
import Verif.Base.Dict
import Mathlib.Data.Rat.Defs
import Mathlib.Algebra.Order.Field.Rat

/-!
# Residual networks: which sizes go through, what is computed, and which states change

Theorems about `Verif.Model.ResNet`.
-/

set_option linter.unusedVariables false
set_option linter.unusedSectionVars false

namespace Verif.Props.ResNet
open Verif.Shapes (Err)
open Verif.Pool (Arr)
open Verif.Utils (Arg)
open Verif.Mlp (ParamFn Linear)
open Verif.ConvArr (Module)
open Verif.Norm (BatchNorm BnState)
open Verif.Props.Reset (Valid)
open Verif.Props.Conv (bind_ok)
open Verif.Props.Norm (bind_eq bind_err)
open Verif.Props.Cores (Has)
open Verif.ResNet
open Verif.Stage

variable {K : Type}

/-! ### Specification: the parameters and the batch normalisations of a network -/

/-- A parameter: module, name, shape. -/
abbrev Param := String × String × List Nat

/-- The scale and the offset of a batch normalisation of `c` channels. -/
def bnParams (scale offset : Bool) (name : String) (c : Nat) : List Param :=
  (if scale then [(name, "scale", [1, 1, 1, c])] else []) ++ (if offset then [(name, "offset", [1, 1, 1, c])] else [])

/-- What the parameters of a network depend on. -/
structure Kind where
  v2 : Bool
  bottleneck : Bool
  scale : Bool
  offset : Bool

/-- The layers of a block: number, kernel size, input and output channels, and the stride. -/
def blockLayers (bottleneck : Bool) (cin ch stride : Nat) : List (Nat × Nat × Nat × Nat × Nat) :=
  if bottleneck then [(0, 1, cin, ch / 4, 1), (1, 3, ch / 4, ch / 4, stride), (2, 1, ch / 4, ch, 1)] else [(0, 3, cin, ch, stride), (1, 3, ch, ch, 1)]

/-- The parameters of a block: the batch normalisations of version 2 are before the convolutions. -/
def blockParams (k : Kind) (name : String) (cin ch : Nat) (proj : Bool) : List Param :=
  (if proj then (name ++ "/~/shortcut_conv", "w", [1, 1, cin, ch]) :: (if k.v2 then [] else bnParams k.scale k.offset (name ++ "/~/shortcut_batchnorm") ch) else []) ++
  (blockLayers k.bottleneck cin ch 1).flatMap fun (i, size, a, b, _) =>
    (name ++ "/~/conv_" ++ toString i, "w", [size, size, a, b]) :: bnParams k.scale k.offset (name ++ "/~/batchnorm_" ++ toString i) (if k.v2 then a else b)

/-- The batch normalisations of a block and their channels. -/
def blockBns (k : Kind) (name : String) (cin ch : Nat) (proj : Bool) : List (String × Nat) :=
  (if proj && !k.v2 then [(name ++ "/~/shortcut_batchnorm", ch)] else []) ++
  (blockLayers k.bottleneck cin ch 1).map fun (i, _, a, b, _) => (name ++ "/~/batchnorm_" ++ toString i, if k.v2 then a else b)

/-- The same for `n` blocks from number `i` on, of which number 0 may have a projection. -/
def blocksParams (k : Kind) (name : String) (ch : Nat) (proj : Bool) : Nat → Nat → Nat → List Param
  | _, _, 0 => []
  | cin, i, n + 1 => blockParams k (name ++ "/~/block_" ++ toString i) cin ch (decide (i = 0) && proj) ++ blocksParams k name ch proj ch (i + 1) n

/-- The batch normalisations of those. -/
def blocksBns (k : Kind) (name : String) (ch : Nat) (proj : Bool) : Nat → Nat → Nat → List (String × Nat)
  | _, _, 0 => []
  | cin, i, n + 1 => blockBns k (name ++ "/~/block_" ++ toString i) cin ch (decide (i = 0) && proj) ++ blocksBns k name ch proj ch (i + 1) n

/-- A group: number of blocks, channels, stride, projection. -/
abbrev Group := Nat × Nat × Nat × Bool

/-- The channels after a group. -/
def after (cin : Nat) (g : Group) : Nat := if g.1 = 0 then cin else g.2.1

/-- The parameters of the groups from number `i` on. -/
def groupsParams (k : Kind) (name : String) : Nat → Nat → List Group → List Param
  | _, _, [] => []
  | cin, i, g :: gs => blocksParams k (name ++ "/~/block_group_" ++ toString i) g.2.1 g.2.2.2 cin 0 g.1 ++ groupsParams k name (after cin g) (i + 1) gs

/-- The batch normalisations of those. -/
def groupsBns (k : Kind) (name : String) : Nat → Nat → List Group → List (String × Nat)
  | _, _, [] => []
  | cin, i, g :: gs => blocksBns k (name ++ "/~/block_group_" ++ toString i) g.2.1 g.2.2.2 cin 0 g.1 ++ groupsBns k name (after cin g) (i + 1) gs

/-- The groups that the arguments describe. -/
def groupsOf (a : Args K) : List Group := (List.range 4).map fun i => (a.blocksPerGroup.getD i 0, a.channelsPerGroup.getD i 0, if i = 0 then 1 else 2, a.useProjection.getD i false)

/-- The kind that they describe. -/
def kindOf (a : Args K) : Kind := ⟨a.resnetV2, a.bottleneck, a.bnConfig.createScale.getD true, a.bnConfig.createOffset.getD true⟩

/-- The channels at the end. -/
def lastChannels (a : Args K) : Nat := (groupsOf a).foldl after 64

/-- The parameters of a network on pictures with `cin` channels. -/
def netParams (name : String) (a : Args K) (cin : Nat) : List Param :=
  (name ++ "/~/initial_conv", "w", [7, 7, cin, 64]) ::
    (if a.resnetV2 then [] else bnParams (kindOf a).scale (kindOf a).offset (name ++ "/~/initial_batchnorm") 64) ++ groupsParams (kindOf a) name 64 0 (groupsOf a) ++
    (if a.resnetV2 then bnParams (kindOf a).scale (kindOf a).offset (name ++ "/~/final_batchnorm") (lastChannels a) else []) ++
    (name ++ "/~/" ++ a.logitsName, "w", [lastChannels a, a.numClasses]) :: (if a.logitsBias then [(name ++ "/~/" ++ a.logitsName, "b", [a.numClasses])] else [])

/-- Its batch normalisations. -/
def netBns (name : String) (a : Args K) : List (String × Nat) :=
  (if a.resnetV2 then [] else [(name ++ "/~/initial_batchnorm", 64)]) ++ groupsBns (kindOf a) name 64 0 (groupsOf a) ++ (if a.resnetV2 then [(name ++ "/~/final_batchnorm", lastChannels a)] else [])

/-- Every first block has a projection, or its stride is 1 and it keeps the number of channels. -/
def Fits : Nat → List Group → Prop
  | _, [] => True
  | cin, g :: gs => (g.1 = 0 ∨ g.2.2.2 = true ∨ (g.2.2.1 = 1 ∧ cin = g.2.1)) ∧ Fits (after cin g) gs

/-- The conditions under which a network can be made. -/
structure Makes (a : Args K) : Prop where
  blocks : a.blocksPerGroup.length = 4
  channels : a.channelsPerGroup.length = 4
  proj : 4 ≤ a.useProjection.length
  scale : a.bnConfig.scaleInit = true → a.bnConfig.createScale ≠ some false
  offset : a.bnConfig.offsetInit = true → a.bnConfig.createOffset ≠ some false
  zero : a.resnetV2 = false → a.bottleneck = true → (∃ n ∈ a.blocksPerGroup, n ≠ 0) → a.bnConfig.createScale ≠ some false ∧ a.bnConfig.scaleInit = false

/-! ### Names -/

theorem digits_str (n : Nat) : (toString n).toList = Nat.toDigits 10 n := by
  show (Nat.repr n).toList = _
  unfold Nat.repr
  exact String.toList_ofList

theorem digits_inj {a b : Nat} (h : Nat.toDigits 10 a = Nat.toDigits 10 b) : a = b := by
  rw [← Nat.ofDigitChars_ten_toDigits (n := a), h, Nat.ofDigitChars_ten_toDigits]

theorem digits_no (n : Nat) (c : Char) (hc : c.isDigit = false) : c ∉ Nat.toDigits 10 n := fun h => by
  have := Nat.isDigit_of_mem_toDigits (by decide) (by decide) h
  rw [hc] at this
  cases this

theorem split_at {c : Char} : ∀ {a b x y : List Char}, c ∉ a → c ∉ b → a ++ c :: x = b ++ c :: y → a = b ∧ x = y
  | [], [], x, y, _, _, h => ⟨rfl, by injection h⟩
  | [], d :: b, x, y, _, hb, h => by injection h with h1 h2; exact absurd (by rw [h1]; exact List.mem_cons_self) hb
  | d :: a, [], x, y, ha, _, h => by injection h with h1 h2; exact absurd (by rw [h1]; exact List.mem_cons_self) ha
  | d :: a, e :: b, x, y, ha, hb, h => by
    injection h with h1 h2
    obtain ⟨h3, h4⟩ := split_at (fun h => ha (List.mem_cons_of_mem _ h)) (fun h => hb (List.mem_cons_of_mem _ h)) h2
    exact ⟨by rw [h1, h3], h4⟩

/-- A number followed by a slash can be read off. -/
theorem num_slash {a r r' : String} {i j : Nat} (h : a ++ toString i ++ "/" ++ r = a ++ toString j ++ "/" ++ r') : i = j := by
  have h := congrArg String.toList h
  simp only [String.toList_append, List.append_assoc, digits_str] at h
  have h := List.append_cancel_left h
  have h : Nat.toDigits 10 i ++ '/' :: r.toList = Nat.toDigits 10 j ++ '/' :: r'.toList := h
  exact digits_inj (split_at (digits_no i '/' (by decide)) (digits_no j '/' (by decide)) h).1

/-- The string begins like this. -/
def Starts (p s : String) : Prop := ∃ r, s = p ++ r

theorem starts_append {p a b : String} (h : Starts p a) : Starts p (a ++ b) := by
  obtain ⟨r, rfl⟩ := h
  exact ⟨r ++ b, String.append_assoc ..⟩

theorem starts_self (p : String) : Starts p p := ⟨"", (String.append_empty).symm⟩

/-- Everything in a block named `name` is below it. -/
theorem block_below {k : Kind} {name : String} {cin ch : Nat} {proj : Bool} {n : String} (h : n ∈ (blockBns k name cin ch proj).map Prod.fst) : ∃ r, n = name ++ "/" ++ r := by
  obtain ⟨b, hb, rfl⟩ := List.mem_map.mp h
  unfold blockBns at hb
  rcases List.mem_append.mp hb with hb | hb
  · split at hb
    · rw [List.mem_singleton.mp hb]
      exact ⟨"~/shortcut_batchnorm", by rw [String.append_assoc]; rfl⟩
    · cases hb
  · obtain ⟨l, _, rfl⟩ := List.mem_map.mp hb
    obtain ⟨i, _, _, _, _⟩ := l
    exact ⟨"~/batchnorm_" ++ toString i, by
      dsimp only
      rw [show "/~/batchnorm_" = "/" ++ "~/batchnorm_" from rfl]
      simp only [String.append_assoc]⟩

theorem blocks_below {k : Kind} {name : String} {ch : Nat} {proj : Bool} : ∀ {n cin i : Nat} {s : String}, s ∈ (blocksBns k name ch proj cin i n).map Prod.fst → ∃ j r, i ≤ j ∧ s = name ++ "/~/block_" ++ toString j ++ "/" ++ r
  | 0, cin, i, s, h => absurd h List.not_mem_nil
  | n + 1, cin, i, s, h => by
    unfold blocksBns at h
    rw [List.map_append] at h
    rcases List.mem_append.mp h with h | h
    · obtain ⟨r, rfl⟩ := block_below h
      exact ⟨i, r, Nat.le_refl _, rfl⟩
    · obtain ⟨j, r, hj, rfl⟩ := blocks_below h
      exact ⟨j, r, by omega, rfl⟩

theorem groups_below {k : Kind} {name : String} : ∀ {gs : List Group} {cin i : Nat} {s : String}, s ∈ (groupsBns k name cin i gs).map Prod.fst → ∃ j r, i ≤ j ∧ s = name ++ "/~/block_group_" ++ toString j ++ "/" ++ r
  | [], cin, i, s, h => absurd h List.not_mem_nil
  | g :: gs, cin, i, s, h => by
    unfold groupsBns at h
    rw [List.map_append] at h
    rcases List.mem_append.mp h with h | h
    · obtain ⟨j, r, _, rfl⟩ := blocks_below h
      exact ⟨i, "~/block_" ++ toString j ++ "/" ++ r, Nat.le_refl _, by
        rw [show "/~/block_" = "/" ++ "~/block_" from rfl]
        simp only [String.append_assoc]⟩
    · obtain ⟨j, r, hj, rfl⟩ := groups_below h
      exact ⟨j, r, by omega, rfl⟩

theorem toString_inj {i j : Nat} (h : toString i = toString j) : i = j := by
  have := congrArg String.toList h
  rw [digits_str, digits_str] at this
  exact digits_inj this

theorem append_inj {a b c : String} (h : a ++ b = a ++ c) : b = c := by
  have := congrArg String.toList h
  rw [String.toList_append, String.toList_append] at this
  exact String.toList_inj.mp (List.append_cancel_left this)

/-- The names of a block's batch normalisations are distinct. -/
theorem block_nodup (k : Kind) (name : String) (cin ch : Nat) (proj : Bool) : ((blockBns k name cin ch proj).map Prod.fst).Nodup := by
  have h : ∃ l : List String, l.Nodup ∧ (blockBns k name cin ch proj).map Prod.fst = l.map (name ++ ·) := by
    obtain ⟨v2, bo, sc, off⟩ := k
    unfold blockBns blockLayers
    cases v2 <;> cases bo <;> cases proj
    all_goals first
      | exact ⟨["/~/batchnorm_0", "/~/batchnorm_1", "/~/batchnorm_2"], by decide, by simp [String.append_assoc]; decide⟩
      | exact ⟨["/~/batchnorm_0", "/~/batchnorm_1"], by decide, by simp [String.append_assoc]; decide⟩
      | exact ⟨["/~/shortcut_batchnorm", "/~/batchnorm_0", "/~/batchnorm_1", "/~/batchnorm_2"], by decide, by simp [String.append_assoc]; decide⟩
      | exact ⟨["/~/shortcut_batchnorm", "/~/batchnorm_0", "/~/batchnorm_1"], by decide, by simp [String.append_assoc]; decide⟩
  obtain ⟨l, h1, h2⟩ := h
  rw [h2]
  exact h1.map fun a b h => append_inj h

theorem blocks_nodup (k : Kind) (name : String) (ch : Nat) (proj : Bool) : ∀ (n cin i : Nat), ((blocksBns k name ch proj cin i n).map Prod.fst).Nodup
  | 0, _, _ => List.nodup_nil
  | n + 1, cin, i => by
    unfold blocksBns
    rw [List.map_append]
    refine List.nodup_append'.mpr ⟨block_nodup .., blocks_nodup k name ch proj n ch (i + 1), fun s h1 h2 => ?_⟩
    obtain ⟨r, rfl⟩ := block_below h1
    obtain ⟨j, r', hj, h⟩ := blocks_below h2
    have := num_slash h
    omega

theorem groups_nodup (k : Kind) (name : String) : ∀ (gs : List Group) (cin i : Nat), ((groupsBns k name cin i gs).map Prod.fst).Nodup
  | [], _, _ => List.nodup_nil
  | g :: gs, cin, i => by
    unfold groupsBns
    rw [List.map_append]
    refine List.nodup_append'.mpr ⟨blocks_nodup .., groups_nodup k name gs _ (i + 1), fun s h1 h2 => ?_⟩
    obtain ⟨j, r, _, rfl⟩ := blocks_below h1
    obtain ⟨j', r', hj, h⟩ := groups_below h2
    have : i = j' := num_slash (r := "~/block_" ++ toString j ++ "/" ++ r) (r' := r') (by
      rw [← h, show "/~/block_" = "/" ++ "~/block_" from rfl]
      simp only [String.append_assoc])
    omega

theorem apart_of_nodup {a b : List (String × Nat)} (h : ((a ++ b).map Prod.fst).Nodup) : Apart a b := by
  rw [List.map_append] at h
  exact fun n h1 h2 => (List.nodup_append'.mp h).2.2 h1 h2

theorem nodup_left {a b : List (String × Nat)} (h : ((a ++ b).map Prod.fst).Nodup) : (a.map Prod.fst).Nodup := by
  rw [List.map_append] at h
  exact (List.nodup_append'.mp h).1

theorem nodup_right {a b : List (String × Nat)} (h : ((a ++ b).map Prod.fst).Nodup) : (b.map Prod.fst).Nodup := by
  rw [List.map_append] at h
  exact (List.nodup_append'.mp h).2.1

/-- The first character after a common beginning. -/
theorem differ {a : String} {c d : Char} {r r' : List Char} {b b' : String} (hb : b.toList = c :: r) (hb' : b'.toList = d :: r') (hcd : c ≠ d) (x y : String) : a ++ b ++ x ≠ a ++ b' ++ y := fun h => by
  have h := congrArg String.toList h
  simp only [String.toList_append, List.append_assoc] at h
  have h := List.append_cancel_left h
  rw [hb, hb'] at h
  exact hcd (List.cons.inj h).1

/-- C122: all names of batch normalisations of a network are distinct. -/
theorem net_nodup (name : String) (a : Args K) : ((netBns name a).map Prod.fst).Nodup := by
  have hg := groups_nodup (kindOf a) name (groupsOf a) 64 0
  have hi : ∀ s ∈ (groupsBns (kindOf a) name 64 0 (groupsOf a)).map Prod.fst, s ≠ name ++ "/~/initial_batchnorm" ∧ s ≠ name ++ "/~/final_batchnorm" := by
    intro s hs
    obtain ⟨j, r, _, rfl⟩ := groups_below hs
    have e : name ++ "/~/block_group_" ++ toString j ++ "/" ++ r = name ++ "/~/" ++ "block_group_" ++ (toString j ++ "/" ++ r) := by
      rw [show "/~/block_group_" = "/~/" ++ "block_group_" from rfl]
      simp only [String.append_assoc]
    have e1 : name ++ "/~/initial_batchnorm" = name ++ "/~/" ++ "initial_batchnorm" ++ "" := by
      rw [String.append_empty, String.append_assoc]; rfl
    have e2 : name ++ "/~/final_batchnorm" = name ++ "/~/" ++ "final_batchnorm" ++ "" := by
      rw [String.append_empty, String.append_assoc]; rfl
    rw [e, e1, e2]
    exact ⟨differ (c := 'b') (d := 'i') rfl rfl (by decide) _ _, differ (c := 'b') (d := 'f') rfl rfl (by decide) _ _⟩
  unfold netBns
  cases a.resnetV2 with
  | false =>
    simp only [Bool.false_eq_true, if_false, List.append_nil, List.singleton_append, List.map_cons]
    exact List.nodup_cons.mpr ⟨fun h => (hi _ h).1 rfl, hg⟩
  | true =>
    simp only [if_true, List.nil_append, List.map_append]
    refine List.nodup_append'.mpr ⟨hg, List.nodup_singleton _, fun s h1 h2 => (hi s h1).2 (List.mem_singleton.mp h2)⟩

/-! ### The objects -/

section Objects
variable [Field K]

/-- A batch normalisation with the settings of a network. -/
def bnOf (c : BnConfig K) (name : String) : BatchNorm K :=
  ⟨name, c.createScale.getD true, c.createOffset.getD true, c.eps.getD (1 / 100000), none, false, -1, ⟨c.decayRate.getD (9 / 10), true, 0⟩⟩

/-- The pairs of a block. -/
def layersOf (c : BnConfig K) (name : String) (bottleneck : Bool) (ch stride : Nat) : List (Module K × BatchNorm K) :=
  (blockLayers bottleneck 0 ch stride).map fun (i, size, _, b, s) => (convModule (name ++ "/~/conv_" ++ toString i) b size s, bnOf c (name ++ "/~/batchnorm_" ++ toString i))

/-- A block. -/
def blockOf (c : BnConfig K) (v2 bottleneck : Bool) (name : String) (ch stride : Nat) (proj : Bool) : Block K :=
  if v2 then .v2 ⟨if proj then some (convModule (name ++ "/~/shortcut_conv") ch 1 stride) else none, layersOf c name bottleneck ch stride⟩
  else .v1 ⟨if proj then some (convModule (name ++ "/~/shortcut_conv") ch 1 stride, bnOf c (name ++ "/~/shortcut_batchnorm")) else none, layersOf c name bottleneck ch stride⟩

/-- The blocks of a group. -/
def blocksOf (c : BnConfig K) (v2 bottleneck : Bool) (name : String) (ch stride : Nat) (proj : Bool) : Nat → Nat → List (Block K)
  | _, 0 => []
  | i, n + 1 => blockOf c v2 bottleneck (name ++ "/~/block_" ++ toString i) ch (if i = 0 then stride else 1) (decide (i = 0) && proj) :: blocksOf c v2 bottleneck name ch stride proj (i + 1) n

/-- A network. -/
def netOf (name : String) (a : Args K) : Net K :=
  ⟨a.resnetV2, convModule (name ++ "/~/initial_conv") 64 7 2, if a.resnetV2 then none else some (bnOf a.bnConfig (name ++ "/~/initial_batchnorm")),
    (List.range 4).map fun i => blocksOf a.bnConfig a.resnetV2 a.bottleneck (name ++ "/~/block_group_" ++ toString i) (a.channelsPerGroup.getD i 0) (if i = 0 then 1 else 2) (a.useProjection.getD i false) 0 (a.blocksPerGroup.getD i 0),
    if a.resnetV2 then some (bnOf a.bnConfig (name ++ "/~/final_batchnorm")) else none, ⟨name ++ "/~/" ++ a.logitsName, none, some a.numClasses, a.logitsBias⟩⟩

/-- Can the batch normalisations be made? -/
def BnOk (c : BnConfig K) (zero : Bool) : Prop :=
  (c.scaleInit = true → c.createScale ≠ some false) ∧ (c.offsetInit = true → c.createOffset ≠ some false) ∧ (zero = true → c.createScale ≠ some false ∧ c.scaleInit = false)

theorem getD_ne {o : Option Bool} (h : o ≠ some false) : o.getD true = true := by
  rcases o with _ | b
  · rfl
  · cases b
    · exact absurd rfl h
    · rfl

theorem bn_made {c : BnConfig K} {zero : Bool} (h : BnOk c zero) (name : String) : c.withDefaults.batchNorm name zero = .ok (bnOf c name) := by
  obtain ⟨h1, h2, h3⟩ := h
  unfold BnConfig.batchNorm BnConfig.withDefaults
  dsimp only
  rw [if_neg (fun h => by rw [(h3 h.1).2] at h; cases h.2)]
  unfold BatchNorm.make
  have e1 : ¬ (c.createScale.getD true = false ∧ (zero || c.scaleInit) = true) := by
    rintro ⟨e, k⟩
    rcases Bool.or_eq_true_iff.mp k with k | k
    · rw [getD_ne (h3 k).1] at e; cases e
    · rw [getD_ne (h1 k)] at e; cases e
  have e2 : ¬ (c.createOffset.getD true = false ∧ c.offsetInit = true) := by
    rintro ⟨e, k⟩
    rw [getD_ne (h2 k)] at e; cases e
  rw [if_neg e1, if_neg e2, if_neg (fun h => by cases h.2)]
  rfl

/-- Both settings of the defaults in a block change nothing. -/
theorem withCreate_full (c : BnConfig K) : c.withDefaults.withCreate = c.withDefaults := rfl

theorem layers_made {c : BnConfig K} (zero : Bool) (bottleneck : Bool) (h : BnOk c (zero && bottleneck)) (name : String) (ch stride : Nat) :
    makeLayers c.withDefaults name ch (.scalar (stride : Int)) bottleneck zero = .ok (layersOf c name bottleneck ch stride) := by
  have h0 : BnOk c false := ⟨h.1, h.2.1, (fun h => by cases h)⟩
  have one : ∀ (i oc k s : Nat) {z : Bool}, BnOk c z → layer c.withDefaults name i oc (k : Int) (.scalar (s : Int)) z =
      .ok (convModule (name ++ "/~/conv_" ++ toString i) oc k s, bnOf c (name ++ "/~/batchnorm_" ++ toString i)) := by
    intro i oc k s z hz
    unfold layer
    rw [bind_eq (conv2d_eq _ oc k s), bind_eq (bn_made hz _)]
  unfold makeLayers
  cases bottleneck with
  | true =>
    rw [Bool.and_true] at h
    have e := (bind_eq (f := fun l0 => (layer c.withDefaults name 1 (ch / 4) 3 (.scalar (stride : Int)) false >>= fun l1 => layer c.withDefaults name 2 ch 1 (.scalar 1) zero >>= fun l2 => Except.ok [l0, l1, l2])) (one 0 (ch / 4) 1 1 h0)).trans
      ((bind_eq (one 1 (ch / 4) 3 stride h0)).trans (bind_eq (one 2 ch 1 1 h)))
    exact e
  | false =>
    have e := (bind_eq (f := fun l0 => (layer c.withDefaults name 1 (ch / 1) 3 (.scalar 1) false >>= fun l1 => Except.ok [l0, l1])) (one 0 (ch / 1) 3 stride h0)).trans (bind_eq (one 1 (ch / 1) 3 1 h0))
    rw [Nat.div_one] at e
    have g := e
    unfold layersOf blockLayers
    rw [← Nat.div_one ch] at e ⊢
    rw [Nat.div_one] at e ⊢
    simp only [Bool.false_eq_true, if_false, Nat.div_one]
    exact e

theorem block_made {c : BnConfig K} (v2 bottleneck : Bool) (h : BnOk c (!v2 && bottleneck)) (name : String) (ch stride : Nat) (proj : Bool) :
    Block.make v2 name ch (.scalar (stride : Int)) proj c.withDefaults bottleneck = .ok (blockOf c v2 bottleneck name ch stride proj) := by
  have h0 : BnOk c false := ⟨h.1, h.2.1, (fun h => by cases h)⟩
  unfold Block.make blockOf
  cases v2 with
  | true =>
    rw [if_pos rfl, if_pos rfl]
    have e : BlockV2.make name ch (.scalar (stride : Int)) proj c.withDefaults bottleneck = .ok ⟨if proj then some (convModule (name ++ "/~/shortcut_conv") ch 1 stride) else none, layersOf c name bottleneck ch stride⟩ := by
      unfold BlockV2.make
      dsimp only
      rw [withCreate_full]
      cases proj with
      | true =>
        rw [if_pos rfl, if_pos rfl]
        rw [show (conv2d (K := K) (name ++ "/~/shortcut_conv") ch 1 (.scalar (stride : Int))).map some = .ok (some (convModule (name ++ "/~/shortcut_conv") ch 1 stride)) from rfl]
        exact bind_eq (layers_made false bottleneck (by exact h0) name ch stride)
      | false =>
        rw [if_neg Bool.false_ne_true, if_neg Bool.false_ne_true]
        exact bind_eq (layers_made false bottleneck (by exact h0) name ch stride)
    rw [e]
    rfl
  | false =>
    rw [if_neg Bool.false_ne_true, if_neg Bool.false_ne_true]
    have e : BlockV1.make name ch (.scalar (stride : Int)) proj c.withDefaults bottleneck =
        .ok ⟨if proj then some (convModule (name ++ "/~/shortcut_conv") ch 1 stride, bnOf c (name ++ "/~/shortcut_batchnorm")) else none, layersOf c name bottleneck ch stride⟩ := by
      unfold BlockV1.make
      dsimp only
      rw [withCreate_full, show ({ c.withDefaults with decayRate := some (c.withDefaults.decayRate.getD (999 / 1000)) } : BnConfig K) = c.withDefaults from rfl]
      have hl := layers_made true bottleneck (by exact h) name ch stride
      cases proj with
      | true =>
        rw [if_pos rfl, if_pos rfl]
        exact (bind_eq (conv2d_eq (K := K) (name ++ "/~/shortcut_conv") ch 1 stride)).trans ((bind_eq (bn_made h0 _)).trans (bind_eq hl))
      | false =>
        rw [if_neg Bool.false_ne_true, if_neg Bool.false_ne_true]
        exact bind_eq hl
    rw [e]
    rfl

theorem blocks_made {c : BnConfig K} (v2 bottleneck : Bool) (name : String) (ch stride : Nat) (proj : Bool) : ∀ (n i : Nat), (n ≠ 0 → BnOk c (!v2 && bottleneck)) →
    groupBlocks v2 name ch (.scalar (stride : Int)) proj c.withDefaults bottleneck i n = .ok (blocksOf c v2 bottleneck name ch stride proj i n)
  | 0, i, _ => rfl
  | n + 1, i, h => by
    have hb := h (Nat.succ_ne_zero n)
    have e : (if i = 0 then Arg.scalar (stride : Int) else .scalar 1) = .scalar ((if i = 0 then stride else 1 : Nat) : Int) := by
      by_cases hi : i = 0
      · rw [if_pos hi, if_pos hi]
      · rw [if_neg hi, if_neg hi]; rfl
    unfold groupBlocks
    rw [e]
    exact (bind_eq (block_made v2 bottleneck hb ..)).trans (bind_eq (blocks_made v2 bottleneck name ch stride proj n (i + 1) fun _ => hb))

theorem mapM_ok {α β : Type} {f : α → Except Err β} {g : α → β} : ∀ {l : List α}, (∀ i ∈ l, f i = .ok (g i)) → l.mapM f = .ok (l.map g)
  | [], _ => rfl
  | i :: l, h => by
    rw [List.mapM_cons, h i List.mem_cons_self, mapM_ok fun j hj => h j (List.mem_cons_of_mem _ hj)]
    rfl

theorem mapM_inv {α β : Type} {f : α → Except Err β} : ∀ {l : List α} {r : List β}, l.mapM f = .ok r → ∀ i ∈ l, ∃ y, f i = .ok y
  | i :: l, r, h, j, hj => by
    rw [List.mapM_cons] at h
    obtain ⟨y, hy, h⟩ := bind_ok h
    obtain ⟨ys, hys, _⟩ := bind_ok h
    rcases List.mem_cons.mp hj with rfl | hj
    · exact ⟨y, hy⟩
    · exact mapM_inv hys j hj

theorem index_some {α : Type} {l : List α} {i : Nat} (d : α) (h : i < l.length) : index l i = .ok (l.getD i d) := by
  unfold index
  rw [List.getElem?_eq_getElem h, List.getD_eq_getElem?_getD, List.getElem?_eq_getElem h]
  rfl

theorem index_inv {α : Type} {l : List α} {i : Nat} {x : α} (h : index l i = .ok x) : l[i]? = some x := by
  unfold index at h
  cases hl : l[i]? with
  | none => rw [hl] at h; cases h
  | some y => rw [hl] at h; cases h; rfl

/-- What making a batch normalisation requires. -/
theorem bn_inv {c : BnConfig K} {zero : Bool} {name : String} {b : BatchNorm K} (h : c.withDefaults.batchNorm name zero = .ok b) : BnOk c zero := by
  unfold BnConfig.batchNorm BnConfig.withDefaults at h
  dsimp only at h
  by_cases h1 : zero = true ∧ c.scaleInit = true
  · rw [if_pos h1] at h; cases h
  rw [if_neg h1] at h
  unfold BatchNorm.make at h
  by_cases h2 : c.createScale.getD true = false ∧ (zero || c.scaleInit) = true
  · rw [if_pos h2] at h; cases h
  rw [if_neg h2] at h
  by_cases h3 : c.createOffset.getD true = false ∧ c.offsetInit = true
  · rw [if_pos h3] at h; cases h
  refine ⟨fun hs e => h2 ⟨by rw [e]; rfl, by rw [hs, Bool.or_true]⟩, fun ho e => h3 ⟨by rw [e]; rfl, ho⟩, fun hz => ⟨fun e => h2 ⟨by rw [e]; rfl, by rw [hz, Bool.true_or]⟩, ?_⟩⟩
  cases hs : c.scaleInit with
  | false => rfl
  | true => exact absurd ⟨hz, hs⟩ h1

theorem layer_inv {c : BnConfig K} {zero : Bool} {name : String} {i oc : Nat} {k : Int} {s : Arg Int} {r : Module K × BatchNorm K} (h : layer c.withDefaults name i oc k s zero = .ok r) : BnOk c zero := by
  unfold layer at h
  obtain ⟨_, _, h⟩ := bind_ok h
  obtain ⟨_, h, _⟩ := bind_ok h
  exact bn_inv h

theorem block_inv {c : BnConfig K} {name : String} {ch : Nat} {stride : Arg Int} {proj : Bool} {b : Block K} (h : Block.make false name ch stride proj c.withDefaults true = .ok b) : BnOk c true := by
  unfold Block.make at h
  rw [if_neg Bool.false_ne_true] at h
  cases hb : BlockV1.make name ch stride proj c.withDefaults true with
  | error e => rw [hb] at h; cases h
  | ok b' =>
    unfold BlockV1.make at hb
    dsimp only at hb
    rw [withCreate_full, show ({ c.withDefaults with decayRate := some (c.withDefaults.decayRate.getD (999 / 1000)) } : BnConfig K) = c.withDefaults from rfl] at hb
    have key : ∀ {ls : List (Module K × BatchNorm K)}, makeLayers c.withDefaults name ch stride true true = .ok ls → BnOk c true := by
      intro ls h
      unfold makeLayers at h
      obtain ⟨_, _, h⟩ := bind_ok h
      obtain ⟨_, _, h⟩ := bind_ok h
      rw [if_pos rfl] at h
      obtain ⟨_, h, _⟩ := bind_ok h
      exact layer_inv h
    cases proj with
    | true =>
      rw [if_pos rfl] at hb
      obtain ⟨_, _, hb⟩ := bind_ok hb
      obtain ⟨_, _, hb⟩ := bind_ok hb
      obtain ⟨_, _, hb⟩ := bind_ok hb
      obtain ⟨_, hb, _⟩ := bind_ok hb
      exact key hb
    | false =>
      rw [if_neg Bool.false_ne_true] at hb
      obtain ⟨_, _, hb⟩ := bind_ok hb
      obtain ⟨_, hb, _⟩ := bind_ok hb
      exact key hb

theorem net_made (name : String) {a : Args K} (h : Makes a) : Net.make name a = .ok (netOf name a) := by
  have h0 : BnOk a.bnConfig false := ⟨h.scale, h.offset, (fun h => by cases h)⟩
  have hg : [0, 1, 2, 3].mapM (group a name a.bnConfig.withDefaults) = .ok ((List.range 4).map fun i => blocksOf a.bnConfig a.resnetV2 a.bottleneck (name ++ "/~/block_group_" ++ toString i) (a.channelsPerGroup.getD i 0)
      (if i = 0 then 1 else 2) (a.useProjection.getD i false) 0 (a.blocksPerGroup.getD i 0)) := by
    refine mapM_ok (l := List.range 4) fun i hi => ?_
    have hi := List.mem_range.mp hi
    unfold group
    have hs : index [(1 : Int), 2, 2, 2] i = .ok (((if i = 0 then 1 else 2 : Nat)) : Int) := by
      match i, hi with
      | 0, _ => rfl
      | 1, _ => rfl
      | 2, _ => rfl
      | 3, _ => rfl
      | i + 4, hi => omega
    refine (bind_eq (index_some 0 (by rw [h.channels]; exact hi))).trans ((bind_eq (index_some 0 (by rw [h.blocks]; exact hi))).trans ((bind_eq hs).trans ((bind_eq (index_some false (Nat.lt_of_lt_of_le hi h.proj))).trans ?_)))
    refine blocks_made a.resnetV2 a.bottleneck _ _ _ _ _ 0 fun hn => ⟨h.scale, h.offset, fun hz => ?_⟩
    obtain ⟨hv, hb⟩ := Bool.and_eq_true_iff.mp hz
    refine h.zero (by cases hv' : a.resnetV2 with | false => rfl | true => rw [hv'] at hv; cases hv) hb ⟨_, List.getElem_mem (by rw [h.blocks]; exact hi), ?_⟩
    rwa [List.getD_eq_getElem?_getD, List.getElem?_eq_getElem (by rw [h.blocks]; exact hi)] at hn
  unfold Net.make netOf
  rw [if_neg (fun e => e h.blocks), if_neg (fun e => e h.channels)]
  dsimp only
  refine (bind_eq (conv2d_eq (K := K) (name ++ "/~/initial_conv") 64 7 2)).trans ?_
  cases hv : a.resnetV2 with
  | false =>
    rw [hv] at hg
    simp only [Bool.false_eq_true, if_false]
    rw [bn_made h0]
    exact bind_eq hg
  | true =>
    rw [hv] at hg
    simp only [if_true]
    rw [bn_made h0]
    exact bind_eq hg

/-! ### C119 -/

/-- C119 A network can be made exactly when `blocks_per_group` and `channels_per_group` have four entries, `use_projection` at least four, `bn_config` gives no initializer for a scale or offset that is not created, and, for version 1 with
bottlenecks and at least one block, it neither turns the scale off nor gives an initializer for it.  The network then has the layers of `netOf`. -/
theorem make_iff (name : String) (a : Args K) (m : Net K) : Net.make name a = .ok m ↔ Makes a ∧ m = netOf name a := by
  constructor
  · intro h
    have hm : Makes a := by
      unfold Net.make at h
      by_cases h1 : a.blocksPerGroup.length ≠ 4
      · rw [if_pos h1] at h; cases h
      rw [if_neg h1] at h
      by_cases h2 : a.channelsPerGroup.length ≠ 4
      · rw [if_pos h2] at h; cases h
      rw [if_neg h2] at h
      have h1 := Decidable.not_not.mp h1
      dsimp only at h
      obtain ⟨c0, _, h⟩ := bind_ok h
      have hboth : BnOk a.bnConfig false ∧ ∃ gs, [0, 1, 2, 3].mapM (group a name a.bnConfig.withDefaults) = .ok gs := by
        have some_inv : ∀ {nm : String} {o : Option (BatchNorm K)}, (a.bnConfig.withDefaults.batchNorm nm false).map some = .ok o → BnOk a.bnConfig false := by
          intro nm o h
          cases hb : a.bnConfig.withDefaults.batchNorm nm false with
          | error e => rw [hb] at h; cases h
          | ok b => exact bn_inv hb
        cases hv : a.resnetV2 with
        | false =>
          rw [hv] at h
          simp only [Bool.false_eq_true, if_false] at h
          obtain ⟨_, hb, h⟩ := bind_ok h
          obtain ⟨gs, hgs, _⟩ := bind_ok h
          exact ⟨some_inv hb, gs, hgs⟩
        | true =>
          rw [hv] at h
          simp only [if_true] at h
          obtain ⟨_, _, h⟩ := bind_ok h
          obtain ⟨gs, hgs, h⟩ := bind_ok h
          obtain ⟨_, hb, _⟩ := bind_ok h
          exact ⟨some_inv hb, gs, hgs⟩
      obtain ⟨hbn, gs, hgs⟩ := hboth
      have hgi := mapM_inv hgs
      have parts : ∀ i ∈ [0, 1, 2, 3], ∃ ch n s p bs, index a.channelsPerGroup i = .ok ch ∧ index a.blocksPerGroup i = .ok n ∧ index a.useProjection i = .ok p ∧
          groupBlocks a.resnetV2 (name ++ "/~/block_group_" ++ toString i) ch (.scalar s) p a.bnConfig.withDefaults a.bottleneck 0 n = .ok bs := by
        intro i hi
        obtain ⟨bs, hbs⟩ := hgi i hi
        unfold group at hbs
        obtain ⟨ch, hch, hbs⟩ := bind_ok hbs
        obtain ⟨n, hn, hbs⟩ := bind_ok hbs
        obtain ⟨s, hs, hbs⟩ := bind_ok hbs
        obtain ⟨p, hp, hbs⟩ := bind_ok hbs
        exact ⟨ch, n, s, p, bs, hch, hn, hp, hbs⟩
      refine ⟨h1, Decidable.not_not.mp h2, ?_, hbn.1, hbn.2.1, fun hv hbo hne => ?_⟩
      · obtain ⟨_, _, _, p, _, _, _, hp, _⟩ := parts 3 (by decide)
        exact (List.getElem?_eq_some_iff.mp (index_inv hp)).1
      · obtain ⟨n, hn, hn0⟩ := hne
        obtain ⟨i, hi, he⟩ := List.mem_iff_getElem.mp hn
        have hmem : i ∈ [0, 1, 2, 3] := by
          rw [h1] at hi
          match i, hi with
          | 0, _ => decide
          | 1, _ => decide
          | 2, _ => decide
          | 3, _ => decide
          | i + 4, hi => omega
        obtain ⟨ch, n', s, p, bs, _, hn', _, hbs⟩ := parts i hmem
        have : n' = n := by
          have := index_inv hn'
          rw [List.getElem?_eq_getElem hi, he] at this
          exact (Option.some.inj this).symm
        subst this
        obtain ⟨n', rfl⟩ := Nat.exists_eq_succ_of_ne_zero hn0
        unfold groupBlocks at hbs
        obtain ⟨b, hb, _⟩ := bind_ok hbs
        rw [hv, hbo] at hb
        exact (block_inv hb).2.2 rfl
    exact ⟨hm, Except.ok.inj (h.symm.trans (net_made name hm))⟩
  · rintro ⟨h, rfl⟩
    exact net_made name h

end Objects

/-! ### Layers as stages -/

section Run
variable [Field K] [LinearOrder K] {get : ParamFn K} {rsqrt : K → K} {tr tl : Bool}

theorem good_congr {f g : Stage K} {b : List (String × Nat)} {s t : List Nat} (h : Good tr tl g b s t) (e : ∀ st x, f st x = g st x) : Good tr tl f b s t := by
  rw [show f = g from funext fun st => funext fun x => e st x]
  exact h

theorem good_mem {f : Stage K} {b b' : List (String × Nat)} {s t : List Nat} (h : Good tr tl f b s t) (e : ∀ p, p ∈ b ↔ p ∈ b') : Good tr tl f b' s t := by
  have e' : ∀ n, n ∈ b'.map Prod.fst ↔ n ∈ b.map Prod.fst := fun n => by simp only [List.mem_map, e]
  intro N st x hx hr
  obtain ⟨y, st', h1, h2, h3, h4, h5, h6⟩ := h N st x hx fun p hp => hr p ((e p).mp hp)
  exact ⟨y, st', h1, h2, fun n hn => h3 n fun k => hn ((e' n).mpr k), fun ht p hp => h4 ht p ((e p).mpr hp), h5, h6⟩

theorem up_one (n : Nat) : up n 1 = n := by
  unfold up
  rw [Nat.add_sub_cancel, Nat.div_one]

theorem bn_plain (c : BnConfig K) (name : String) : Plain (bnOf c name) := ⟨rfl, rfl, rfl⟩

theorem bn_there {c : BnConfig K} {name : String} {C : Nat} (h : ∀ p ∈ bnParams (c.createScale.getD true) (c.createOffset.getD true) name C, There get p) : BnParams get (bnOf c name) C := by
  refine ⟨fun hs => h _ ?_, fun ho => h _ ?_⟩
  · have hs : c.createScale.getD true = true := hs
    unfold bnParams
    rw [hs, if_pos rfl]
    exact List.mem_append_left _ (List.mem_singleton_self _)
  · have ho : c.createOffset.getD true = true := ho
    unfold bnParams
    rw [ho, if_pos rfl]
    exact List.mem_append_right _ (List.mem_singleton_self _)

/-- A layer of a block: its names, kernel size, channels and stride. -/
structure Layer where
  conv : String
  bn : String
  size : Nat
  cin : Nat
  cout : Nat
  stride : Nat

/-- The pair that the model uses. -/
def Layer.pair (c : BnConfig K) (l : Layer) : Module K × BatchNorm K := (convModule l.conv l.cout l.size l.stride, bnOf c l.bn)

/-- The channels fit, and kernels and strides are positive. -/
def Chained : Nat → List Layer → Nat → Prop
  | cin, [], cout => cin = cout
  | cin, l :: ls, cout => l.cin = cin ∧ 1 ≤ l.size ∧ 1 ≤ l.stride ∧ Chained l.cout ls cout

/-- The size after the strides. -/
def ups : Nat → List Layer → Nat
  | n, [] => n
  | n, l :: ls => ups (up n l.stride) ls

/-- The parameters of the layers are there. -/
def Params (get : ParamFn K) (c : BnConfig K) (v2 : Bool) (ls : List Layer) : Prop :=
  ∀ l ∈ ls, There get (l.conv, "w", [l.size, l.size, l.cin, l.cout]) ∧ BnParams get (bnOf c l.bn) (if v2 then l.cin else l.cout)

theorem v1_cons (l : Module K × BatchNorm K) (rest : List (Module K × BatchNorm K)) (st : States K) (x : Arr K) :
    BlockV1.loop get rsqrt tr tl (l :: rest) st x = comp (comp (lift (l.1.call get)) (runBn get rsqrt tr tl l.2)) (comp (lift fun x => .ok (if rest.isEmpty then x else relu x)) (BlockV1.loop get rsqrt tr tl rest)) st x := by
  obtain ⟨c, b⟩ := l
  show (c.call get x >>= fun out => _) = ((c.call get x >>= fun y => Except.ok (y, st)) >>= _) >>= _
  rcases c.call get x with e | y
  · rfl
  show (runBn get rsqrt tr tl b st y >>= _) = runBn get rsqrt tr tl b st y >>= _
  rcases runBn get rsqrt tr tl b st y with e | ⟨z, st'⟩
  · rfl
  rfl

theorem good_v1 (c : BnConfig K) : ∀ (ls : List Layer) (H W cin cout : Nat), Chained cin ls cout → Params get c false ls → (ls.map Layer.bn).Nodup →
    Good tr tl (BlockV1.loop get rsqrt tr tl (ls.map (Layer.pair c))) (ls.map fun l => (l.bn, l.cout)) [H, W, cin] [ups H ls, ups W ls, cout]
  | [], H, W, cin, cout, hc, _, _ => by
    have hc : cin = cout := hc
    subst hc
    exact good_congr (good_id _) fun st x => rfl
  | l :: ls, H, W, cin, cout, hc, hp, hn => by
    obtain ⟨h1, h2, h3, h4⟩ := hc
    obtain ⟨p1, p2⟩ := hp l List.mem_cons_self
    have ih := good_v1 c ls (up H l.stride) (up W l.stride) l.cout cout h4 (fun l hl => hp l (List.mem_cons_of_mem _ hl)) (List.nodup_cons.mp hn).2
    have hconv : Good tr tl (lift ((l.pair c).1.call get)) [] [H, W, cin] [up H l.stride, up W l.stride, l.cout] := good_conv2d h2 h3 (by rw [← h1]; exact p1)
    have hbn : Good tr tl (runBn get rsqrt tr tl (l.pair c).2) [(l.bn, l.cout)] [up H l.stride, up W l.stride, l.cout] [up H l.stride, up W l.stride, l.cout] := good_bn (bn_plain c l.bn) p2
    have hr : ∀ b : Bool, Good tr tl (lift fun x : Arr K => .ok (if b then x else relu x)) [] [up H l.stride, up W l.stride, l.cout] [up H l.stride, up W l.stride, l.cout] := fun b => by
      cases b
      · exact good_relu _
      · exact good_id _
    refine good_congr (good_comp (good_comp hconv hbn (fun n h => absurd h List.not_mem_nil)) (good_comp (hr _) ih (fun n h => absurd h List.not_mem_nil)) ?_) (v1_cons _ _)
    intro n h1 h2
    rw [List.mem_singleton.mp h1, List.map_map] at h2
    exact (List.nodup_cons.mp hn).1 h2

/-- The loop of a block of version 2 without projection, without the shortcut. -/
def v2Stage (get : ParamFn K) (rsqrt : K → K) (tr tl : Bool) : List (Module K × BatchNorm K) → Stage K
  | [] => fun st x => .ok (x, st)
  | l :: ls => comp (comp (runBn get rsqrt tr tl l.2) (lift fun x => .ok (relu x))) (comp (lift (l.1.call get)) (v2Stage get rsqrt tr tl ls))

theorem v2_loop : ∀ (ls : List (Module K × BatchNorm K)) (st : States K) (x sc : Arr K),
    BlockV2.loop get rsqrt tr tl none ls st x sc = v2Stage get rsqrt tr tl ls st x >>= fun p => .ok ((p.1, sc), p.2)
  | [], st, x, sc => rfl
  | (c, b) :: ls, st, x, sc => by
    show (runBn get rsqrt tr tl b st x >>= _) = (((runBn get rsqrt tr tl b st x) >>= _) >>= _) >>= _
    rcases runBn get rsqrt tr tl b st x with e | ⟨y, st'⟩
    · rfl
    show (c.call get (relu y) >>= fun z => BlockV2.loop get rsqrt tr tl none ls st' z sc) = ((c.call get (relu y) >>= fun z => Except.ok (z, st')) >>= fun p => v2Stage get rsqrt tr tl ls p.2 p.1) >>= _
    rcases c.call get (relu y) with e | z
    · rfl
    exact v2_loop ls st' z sc

theorem good_v2 (c : BnConfig K) : ∀ (ls : List Layer) (H W cin cout : Nat), Chained cin ls cout → Params get c true ls → (ls.map Layer.bn).Nodup →
    Good tr tl (v2Stage get rsqrt tr tl (ls.map (Layer.pair c))) (ls.map fun l => (l.bn, l.cin)) [H, W, cin] [ups H ls, ups W ls, cout]
  | [], H, W, cin, cout, hc, _, _ => by
    have hc : cin = cout := hc
    subst hc
    exact good_id _
  | l :: ls, H, W, cin, cout, hc, hp, hn => by
    obtain ⟨h1, h2, h3, h4⟩ := hc
    obtain ⟨p1, p2⟩ := hp l List.mem_cons_self
    have ih := good_v2 c ls (up H l.stride) (up W l.stride) l.cout cout h4 (fun l hl => hp l (List.mem_cons_of_mem _ hl)) (List.nodup_cons.mp hn).2
    have hconv : Good tr tl (lift ((l.pair c).1.call get)) [] [H, W, cin] [up H l.stride, up W l.stride, l.cout] := good_conv2d h2 h3 (by rw [← h1]; exact p1)
    have hbn : Good tr tl (runBn get rsqrt tr tl (l.pair c).2) [(l.bn, l.cin)] [H, W, cin] [H, W, cin] := by rw [← h1]; exact good_bn (bn_plain c l.bn) p2
    refine good_comp (b1 := [(l.bn, l.cin)]) (good_comp hbn (good_relu _) (fun n _ h => absurd h List.not_mem_nil)) (good_comp hconv ih (fun n h => absurd h List.not_mem_nil)) ?_
    intro n h1 h2
    rw [List.mem_singleton.mp h1, List.map_map] at h2
    exact (List.nodup_cons.mp hn).1 h2

/-- The layers of a block, with their names. -/
def named (bottleneck : Bool) (name : String) (cin ch stride : Nat) : List Layer :=
  (blockLayers bottleneck cin ch stride).map fun (i, size, a, b, s) => ⟨name ++ "/~/conv_" ++ toString i, name ++ "/~/batchnorm_" ++ toString i, size, a, b, s⟩

theorem named_pair (c : BnConfig K) (bottleneck : Bool) (name : String) (cin ch stride : Nat) : layersOf c name bottleneck ch stride = (named bottleneck name cin ch stride).map (Layer.pair c) := by
  unfold layersOf named blockLayers
  cases bottleneck <;> rfl

theorem named_ups (bottleneck : Bool) (name : String) (cin ch stride n : Nat) : ups n (named bottleneck name cin ch stride) = up n stride := by
  unfold named blockLayers
  cases bottleneck
  · show up (up n stride) 1 = _
    rw [up_one]
  · show up (up (up n 1) stride) 1 = _
    rw [up_one, up_one]

theorem named_chained (bottleneck : Bool) (name : String) (cin ch : Nat) {stride : Nat} (hs : 1 ≤ stride) : Chained cin (named bottleneck name cin ch stride) ch := by
  unfold named blockLayers
  cases bottleneck
  · exact ⟨rfl, by show 1 ≤ 3; decide, hs, rfl, by show 1 ≤ 3; decide, Nat.le_refl _, rfl⟩
  · exact ⟨rfl, Nat.le_refl _, Nat.le_refl _, rfl, by show 1 ≤ 3; decide, hs, rfl, Nat.le_refl _, Nat.le_refl _, rfl⟩

/-- The batch normalisations of the layers. -/
theorem named_bns (k : Kind) (name : String) (cin ch stride : Nat) (proj : Bool) : blockBns k name cin ch proj =
    (if proj && !k.v2 then [(name ++ "/~/shortcut_batchnorm", ch)] else []) ++ (named k.bottleneck name cin ch stride).map fun l => (l.bn, if k.v2 then l.cin else l.cout) := by
  unfold blockBns named blockLayers
  cases k.bottleneck <;> rfl

theorem named_params {a : Args K} {name : String} {cin ch stride : Nat} {proj : Bool} (h : ∀ p ∈ blockParams (kindOf a) name cin ch proj, There get p) :
    Params get a.bnConfig a.resnetV2 (named a.bottleneck name cin ch stride) := by
  intro l hl
  unfold named at hl
  obtain ⟨⟨i, size, p, q, s⟩, hm, rfl⟩ := List.mem_map.mp hl
  have hm' : ∃ s', (i, size, p, q, s') ∈ blockLayers a.bottleneck cin ch 1 := by
    revert hm
    unfold blockLayers
    cases a.bottleneck
    · intro hm
      simp only [Bool.false_eq_true, if_false, List.mem_cons, Prod.mk.injEq, List.not_mem_nil, or_false] at hm ⊢
      rcases hm with ⟨h1, h2, h3, h4, _⟩ | ⟨h1, h2, h3, h4, _⟩
      · exact ⟨1, .inl ⟨h1, h2, h3, h4, rfl⟩⟩
      · exact ⟨1, .inr ⟨h1, h2, h3, h4, rfl⟩⟩
    · intro hm
      simp only [if_true, List.mem_cons, Prod.mk.injEq, List.not_mem_nil, or_false] at hm ⊢
      rcases hm with ⟨h1, h2, h3, h4, _⟩ | ⟨h1, h2, h3, h4, _⟩ | ⟨h1, h2, h3, h4, _⟩
      · exact ⟨1, .inl ⟨h1, h2, h3, h4, rfl⟩⟩
      · exact ⟨1, .inr (.inl ⟨h1, h2, h3, h4, rfl⟩)⟩
      · exact ⟨1, .inr (.inr ⟨h1, h2, h3, h4, rfl⟩)⟩
  obtain ⟨s', hm'⟩ := hm'
  have sub : ∀ p' ∈ (name ++ "/~/conv_" ++ toString i, "w", [size, size, p, q]) :: bnParams (kindOf a).scale (kindOf a).offset (name ++ "/~/batchnorm_" ++ toString i) (if (kindOf a).v2 then p else q), There get p' := fun p' hp' =>
    h p' (List.mem_append_right _ (List.mem_flatMap.mpr ⟨_, hm', hp'⟩))
  exact ⟨sub _ List.mem_cons_self, bn_there fun p' hp' => sub p' (List.mem_cons_of_mem _ hp')⟩

theorem v1_call (m : BlockV1 K) (st : States K) (x : Arr K) :
    m.call get rsqrt tr tl st x = comp (residual (BlockV1.shortcut get rsqrt tr tl m.proj) (BlockV1.loop get rsqrt tr tl m.layers)) (lift fun x => .ok (relu x)) st x := by
  show (BlockV1.shortcut get rsqrt tr tl m.proj st x >>= _) = (BlockV1.shortcut get rsqrt tr tl m.proj st x >>= _) >>= _
  rcases BlockV1.shortcut get rsqrt tr tl m.proj st x with e | ⟨sc, st1⟩
  · rfl
  show (BlockV1.loop get rsqrt tr tl m.layers st1 x >>= _) = (BlockV1.loop get rsqrt tr tl m.layers st1 x >>= _) >>= _
  rcases BlockV1.loop get rsqrt tr tl m.layers st1 x with e | ⟨out, st2⟩
  · rfl
  show (Verif.Nd.zip (· + ·) out sc >>= _) = (Verif.Nd.zip (· + ·) out sc >>= _) >>= _
  rcases Verif.Nd.zip (· + ·) out sc with e | z
  · rfl
  rfl

theorem v2_call_none (ls : List (Module K × BatchNorm K)) (st : States K) (x : Arr K) :
    (⟨none, ls⟩ : BlockV2 K).call get rsqrt tr tl st x = residual (fun st x => .ok (x, st)) (v2Stage get rsqrt tr tl ls) st x := by
  unfold BlockV2.call
  rw [v2_loop]
  show ((v2Stage get rsqrt tr tl ls st x >>= _) >>= _) = v2Stage get rsqrt tr tl ls st x >>= _
  rcases v2Stage get rsqrt tr tl ls st x with e | ⟨out, st1⟩
  · rfl
  rfl

theorem v2_call_some (p : Module K) (l : Module K × BatchNorm K) (ls : List (Module K × BatchNorm K)) (st : States K) (x : Arr K) :
    (⟨some p, l :: ls⟩ : BlockV2 K).call get rsqrt tr tl st x =
      comp (comp (runBn get rsqrt tr tl l.2) (lift fun x => .ok (relu x))) (residual (lift (p.call get)) (comp (lift (l.1.call get)) (v2Stage get rsqrt tr tl ls))) st x := by
  obtain ⟨c, b⟩ := l
  unfold BlockV2.call BlockV2.loop
  show ((runBn get rsqrt tr tl b st x >>= _) >>= _) = ((runBn get rsqrt tr tl b st x) >>= _) >>= _
  rcases runBn get rsqrt tr tl b st x with e | ⟨y, st'⟩
  · rfl
  show ((p.call get (relu y) >>= _) >>= _) = (p.call get (relu y) >>= _) >>= _
  rcases p.call get (relu y) with e | sc
  · rfl
  show ((c.call get (relu y) >>= fun x => BlockV2.loop get rsqrt tr tl none ls st' x sc) >>= _) = ((c.call get (relu y) >>= _) >>= _) >>= _
  rcases c.call get (relu y) with e | z
  · rfl
  show (BlockV2.loop get rsqrt tr tl none ls st' z sc >>= _) = v2Stage get rsqrt tr tl ls st' z >>= _
  rw [v2_loop]
  rcases v2Stage get rsqrt tr tl ls st' z with e | ⟨out, st1⟩
  · rfl
  rfl

theorem good_block {a : Args K} {name : String} {cin ch stride : Nat} {proj : Bool} (hs : 1 ≤ stride) (hfit : proj = true ∨ (stride = 1 ∧ cin = ch))
    (hp : ∀ p ∈ blockParams (kindOf a) name cin ch proj, There get p) (H W : Nat) :
    Good tr tl ((blockOf a.bnConfig a.resnetV2 a.bottleneck name ch stride proj).call get rsqrt tr tl) (blockBns (kindOf a) name cin ch proj) [H, W, cin] [up H stride, up W stride, ch] := by
  have hnd := block_nodup (kindOf a) name cin ch proj
  have hps := named_params (stride := stride) hp
  have hproj : proj = true → There get (name ++ "/~/shortcut_conv", "w", [1, 1, cin, ch]) := fun h => hp _ (by
    unfold blockParams
    rw [h, if_pos rfl]
    exact List.mem_append_left _ List.mem_cons_self)
  rw [named_bns (stride := stride)] at hnd ⊢
  have hk : (kindOf a).bottleneck = a.bottleneck := rfl
  have hv2 : (kindOf a).v2 = a.resnetV2 := rfl
  rw [hk, hv2] at hnd ⊢
  have hnd2 : ((named a.bottleneck name cin ch stride).map Layer.bn).Nodup := by
    have := nodup_right hnd
    rwa [List.map_map] at this
  have hap := apart_of_nodup hnd
  unfold blockOf
  cases hv : a.resnetV2 with
  | false =>
    rw [hv] at hps hap
    rw [if_neg Bool.false_ne_true]
    have hl := good_v1 (tr := tr) (tl := tl) (rsqrt := rsqrt) a.bnConfig (named a.bottleneck name cin ch stride) H W cin ch (named_chained a.bottleneck name cin ch hs) hps hnd2
    rw [named_ups, named_ups] at hl
    cases proj with
    | true =>
      have hsc : Good tr tl (BlockV1.shortcut get rsqrt tr tl (some (convModule (name ++ "/~/shortcut_conv") ch 1 stride, bnOf a.bnConfig (name ++ "/~/shortcut_batchnorm")))) [(name ++ "/~/shortcut_batchnorm", ch)]
          [H, W, cin] [up H stride, up W stride, ch] := by
        refine good_congr (good_comp (b1 := []) (good_conv2d (Nat.le_refl _) hs (hproj rfl)) (good_bn (rsqrt := rsqrt) (bn_plain a.bnConfig (name ++ "/~/shortcut_batchnorm")) (bn_there fun p h => hp p ?_)) (fun n h => absurd h List.not_mem_nil)) fun st x => ?_
        · unfold blockParams
          rw [if_pos rfl, hv2, hv, if_neg Bool.false_ne_true]
          exact List.mem_append_left _ (List.mem_cons_of_mem _ h)
        · show ((convModule (name ++ "/~/shortcut_conv") ch 1 stride).call get x >>= _) = ((convModule (name ++ "/~/shortcut_conv") ch 1 stride).call get x >>= _) >>= _
          rcases (convModule (name ++ "/~/shortcut_conv") ch 1 stride).call get x with e | y
          · rfl
          rfl
      refine good_mem (good_congr (good_comp (good_residual hsc hl hap) (good_relu _) (fun n _ h => absurd h List.not_mem_nil)) (f := fun st x => BlockV1.call get rsqrt tr tl _ st x) (fun st x => ?_)) fun p => by rw [List.append_nil]; rfl
      rw [v1_call, named_pair a.bnConfig a.bottleneck name cin]
      rfl
    | false =>
      obtain ⟨rfl, rfl⟩ := hfit.resolve_left Bool.false_ne_true
      rw [up_one, up_one] at hl ⊢
      refine good_mem (good_congr (good_comp (good_residual (b1 := []) (good_id _) hl (fun n h => absurd h List.not_mem_nil)) (good_relu _) (fun n _ h => absurd h List.not_mem_nil)) (f := fun st x => BlockV1.call get rsqrt tr tl _ st x)
        (fun st x => ?_)) fun p => by rw [List.append_nil]; rfl
      rw [v1_call, named_pair a.bnConfig a.bottleneck name cin]
      rfl
  | true =>
    rw [hv] at hps
    rw [if_pos rfl]
    cases proj with
    | false =>
      obtain ⟨rfl, rfl⟩ := hfit.resolve_left Bool.false_ne_true
      have hl := good_v2 (tr := tr) (tl := tl) (rsqrt := rsqrt) a.bnConfig (named a.bottleneck name cin cin 1) H W cin cin (named_chained a.bottleneck name cin cin hs) hps hnd2
      rw [named_ups, named_ups, up_one, up_one] at hl
      rw [up_one, up_one]
      refine good_congr (good_residual (b1 := []) (good_id _) hl (fun n h => absurd h List.not_mem_nil)) (f := fun st x => BlockV2.call get rsqrt tr tl _ st x) (fun st x => ?_)
      rw [← named_pair]
      exact v2_call_none ..
    | true =>
      obtain ⟨l, ls, hls, hc⟩ : ∃ l ls, named a.bottleneck name cin ch stride = l :: ls ∧ Chained cin (l :: ls) ch := by
        have hc := named_chained a.bottleneck name cin ch hs
        cases h : named a.bottleneck name cin ch stride with
        | nil =>
          unfold named blockLayers at h
          cases hb : a.bottleneck <;> rw [hb] at h <;> cases h
        | cons l ls => rw [h] at hc; exact ⟨l, ls, rfl, hc⟩
      have hu := named_ups a.bottleneck name cin ch stride
      rw [hls] at hps hnd2 hu ⊢
      obtain ⟨h1, h2, h3, h4⟩ := hc
      obtain ⟨p1, p2⟩ := hps l List.mem_cons_self
      have hbn : Good tr tl (runBn get rsqrt tr tl (l.pair a.bnConfig).2) [(l.bn, l.cin)] [H, W, cin] [H, W, cin] := by rw [← h1]; exact good_bn (bn_plain a.bnConfig l.bn) p2
      have hconv : Good tr tl (lift ((l.pair a.bnConfig).1.call get)) [] [H, W, cin] [up H l.stride, up W l.stride, l.cout] := good_conv2d h2 h3 (by rw [← h1]; exact p1)
      have hl := good_v2 (tr := tr) (tl := tl) (rsqrt := rsqrt) a.bnConfig ls (up H l.stride) (up W l.stride) l.cout ch h4 (fun l hl => hps l (List.mem_cons_of_mem _ hl)) (List.nodup_cons.mp hnd2).2
      have hH : ups (up H l.stride) ls = up H stride := hu H
      have hW : ups (up W l.stride) ls = up W stride := hu W
      rw [hH, hW] at hl
      have hpc : Good tr tl (lift ((convModule (name ++ "/~/shortcut_conv") ch 1 stride).call get)) [] [H, W, cin] [up H stride, up W stride, ch] := good_conv2d (Nat.le_refl _) hs (hproj rfl)
      refine good_congr (good_comp (b1 := [(l.bn, l.cin)]) (good_comp hbn (good_relu _) (fun n _ h => absurd h List.not_mem_nil))
        (good_residual (b1 := []) hpc (good_comp (b1 := []) hconv hl (fun n h => absurd h List.not_mem_nil)) (fun n h => absurd h List.not_mem_nil)) ?_) (f := fun st x => BlockV2.call get rsqrt tr tl _ st x) (fun st x => ?_)
      · intro n k1 k2
        rw [List.mem_singleton.mp k1, List.map_map] at k2
        exact (List.nodup_cons.mp hnd2).1 k2
      · rw [named_pair a.bnConfig a.bottleneck name cin, hls]
        exact v2_call_some ..

/-! ### Groups and the network -/

theorem runBlocks_cons (b : Block K) (bs : List (Block K)) (st : States K) (x : Arr K) : runBlocks get rsqrt tr tl (b :: bs) st x = comp (b.call get rsqrt tr tl) (runBlocks get rsqrt tr tl bs) st x := by
  show (b.call get rsqrt tr tl st x >>= _) = b.call get rsqrt tr tl st x >>= _
  rcases b.call get rsqrt tr tl st x with e | ⟨y, st'⟩
  · rfl
  rfl

theorem runGroups_cons (b : List (Block K)) (bs : List (List (Block K))) (st : States K) (x : Arr K) : runGroups get rsqrt tr tl (b :: bs) st x = comp (runBlocks get rsqrt tr tl b) (runGroups get rsqrt tr tl bs) st x := by
  show (runBlocks get rsqrt tr tl b st x >>= _) = runBlocks get rsqrt tr tl b st x >>= _
  rcases runBlocks get rsqrt tr tl b st x with e | ⟨y, st'⟩
  · rfl
  rfl

theorem good_tail {a : Args K} {name : String} {ch stride : Nat} {proj : Bool} (H W : Nat) : ∀ (n i : Nat), 1 ≤ i → (∀ p ∈ blocksParams (kindOf a) name ch proj ch i n, There get p) →
    Good tr tl (runBlocks get rsqrt tr tl (blocksOf a.bnConfig a.resnetV2 a.bottleneck name ch stride proj i n)) (blocksBns (kindOf a) name ch proj ch i n) [H, W, ch] [H, W, ch]
  | 0, i, _, _ => good_congr (good_id _) fun st x => rfl
  | n + 1, i, hi, hp => by
    have hi0 : ¬ i = 0 := by omega
    have e1 : (decide (i = 0) && proj) = false := by rw [decide_eq_false hi0, Bool.false_and]
    have hb := good_block (tr := tr) (tl := tl) (rsqrt := rsqrt) (get := get) (a := a) (name := name ++ "/~/block_" ++ toString i) (cin := ch) (ch := ch) (stride := 1) (proj := false) (Nat.le_refl _) (.inr ⟨rfl, rfl⟩)
      (fun p h => hp p (by unfold blocksParams; rw [e1]; exact List.mem_append_left _ h)) H W
    rw [up_one, up_one] at hb
    have ih := good_tail (a := a) (name := name) (ch := ch) (stride := stride) (proj := proj) H W n (i + 1) (by omega) (fun p h => hp p (by unfold blocksParams; exact List.mem_append_right _ h))
    have hn := blocks_nodup (kindOf a) name ch proj (n + 1) ch i
    unfold blocksBns blocksOf
    unfold blocksBns at hn
    rw [e1] at hn ⊢
    rw [if_neg hi0]
    exact good_congr (good_comp hb ih (apart_of_nodup hn)) (runBlocks_cons _ _)

/-- The size after a group. -/
def groupUp (n : Nat) (g : Group) : Nat := if g.1 = 0 then n else up n g.2.2.1

theorem good_group {a : Args K} {name : String} (g : Group) (hs : 1 ≤ g.2.2.1) (cin H W : Nat) (hfit : g.1 = 0 ∨ g.2.2.2 = true ∨ (g.2.2.1 = 1 ∧ cin = g.2.1))
    (hp : ∀ p ∈ blocksParams (kindOf a) name g.2.1 g.2.2.2 cin 0 g.1, There get p) :
    Good tr tl (runBlocks get rsqrt tr tl (blocksOf a.bnConfig a.resnetV2 a.bottleneck name g.2.1 g.2.2.1 g.2.2.2 0 g.1)) (blocksBns (kindOf a) name g.2.1 g.2.2.2 cin 0 g.1) [H, W, cin]
      [groupUp H g, groupUp W g, after cin g] := by
  obtain ⟨n, ch, s, proj⟩ := g
  cases n with
  | zero => exact good_congr (good_id _) fun st x => rfl
  | succ n =>
    have hfit := hfit.resolve_left (Nat.succ_ne_zero n)
    have hb := good_block (tr := tr) (tl := tl) (rsqrt := rsqrt) (get := get) (a := a) (name := name ++ "/~/block_" ++ toString 0) (cin := cin) (ch := ch) (stride := s) (proj := proj) hs hfit
      (fun p h => hp p (by unfold blocksParams; exact List.mem_append_left _ h)) H W
    have ih := good_tail (tr := tr) (tl := tl) (rsqrt := rsqrt) (a := a) (name := name) (ch := ch) (stride := s) (proj := proj) (up H s) (up W s) n 1 (Nat.le_refl _) (fun p h => hp p (by unfold blocksParams; exact List.mem_append_right _ h))
    have hn := blocks_nodup (kindOf a) name ch proj (n + 1) cin 0
    exact good_congr (good_comp hb ih (apart_of_nodup hn)) (runBlocks_cons _ _)

/-- The groups as the model has them. -/
def groupBlocksOf (a : Args K) (name : String) : Nat → List Group → List (List (Block K))
  | _, [] => []
  | i, g :: gs => blocksOf a.bnConfig a.resnetV2 a.bottleneck (name ++ "/~/block_group_" ++ toString i) g.2.1 g.2.2.1 g.2.2.2 0 g.1 :: groupBlocksOf a name (i + 1) gs

theorem good_groups {a : Args K} {name : String} : ∀ (gs : List Group) (cin i H W : Nat), (∀ g ∈ gs, 1 ≤ g.2.2.1) → Fits cin gs → (∀ p ∈ groupsParams (kindOf a) name cin i gs, There get p) →
    Good tr tl (runGroups get rsqrt tr tl (groupBlocksOf a name i gs)) (groupsBns (kindOf a) name cin i gs) [H, W, cin] [gs.foldl groupUp H, gs.foldl groupUp W, gs.foldl after cin]
  | [], cin, i, H, W, _, _, _ => good_congr (good_id _) fun st x => rfl
  | g :: gs, cin, i, H, W, hs, hf, hp => by
    have hg := good_group (tr := tr) (tl := tl) (rsqrt := rsqrt) (a := a) (name := name ++ "/~/block_group_" ++ toString i) g (hs g List.mem_cons_self) cin H W hf.1
      (fun p h => hp p (by unfold groupsParams; exact List.mem_append_left _ h))
    have ih := good_groups (a := a) (name := name) gs (after cin g) (i + 1) (groupUp H g) (groupUp W g) (fun g h => hs g (List.mem_cons_of_mem _ h)) hf.2 (fun p h => hp p (by unfold groupsParams; exact List.mem_append_right _ h))
    have hn := groups_nodup (kindOf a) name (g :: gs) cin i
    exact good_congr (good_comp hg ih (apart_of_nodup hn)) (runGroups_cons _ _)

theorem groups_pos (a : Args K) : ∀ g ∈ groupsOf a, 1 ≤ g.2.2.1 := by
  intro g hg
  obtain ⟨i, _, rfl⟩ := List.mem_map.mp hg
  dsimp only
  split
  · exact Nat.le_refl _
  · decide

theorem good_normed {c : BnConfig K} {name : String} {H W C : Nat} (hp : ∀ p ∈ bnParams (c.createScale.getD true) (c.createOffset.getD true) name C, There get p) :
    Good tr tl (normed get rsqrt tr tl (some (bnOf c name))) [(name, C)] [H, W, C] [H, W, C] := by
  refine good_congr (good_mem (good_comp (good_bn (rsqrt := rsqrt) (bn_plain c name) (bn_there hp)) (good_relu _) (fun n _ h => absurd h List.not_mem_nil)) fun p => by rw [List.append_nil]; rfl) fun st x => ?_
  show (runBn get rsqrt tr tl (bnOf c name) st x >>= _) = runBn get rsqrt tr tl (bnOf c name) st x >>= _
  rcases runBn get rsqrt tr tl (bnOf c name) st x with e | ⟨y, st'⟩
  · rfl
  rfl

/-- All of a network but the last layer. -/
def trunk (get : ParamFn K) (rsqrt : K → K) (tr tl : Bool) (m : Net K) : Stage K :=
  comp (comp (comp (lift (m.initialConv.call get)) (normed get rsqrt tr tl m.initialBn)) (comp (lift fun x => maxPool x [1, 3, 3, 1] [1, 2, 2, 1]) (runGroups get rsqrt tr tl m.groups))) (comp (normed get rsqrt tr tl m.finalBn) (lift spatialMean))

theorem net_call (m : Net K) (st : States K) (x : Arr K) : m.call get rsqrt st x tr tl = comp (trunk get rsqrt tr tl m) (lift fun x => m.logits.call get x >>= fun p => .ok p.1) st x := by
  show (m.initialConv.call get x >>= _) = ((((m.initialConv.call get x >>= _) >>= _) >>= _) >>= _) >>= _
  rcases m.initialConv.call get x with e | y
  · rfl
  show (normed get rsqrt tr tl m.initialBn st y >>= _) = ((normed get rsqrt tr tl m.initialBn st y >>= _) >>= _) >>= _
  rcases normed get rsqrt tr tl m.initialBn st y with e | ⟨z, st1⟩
  · rfl
  show (maxPool z [1, 3, 3, 1] [1, 2, 2, 1] >>= _) = (((maxPool z [1, 3, 3, 1] [1, 2, 2, 1] >>= _) >>= _) >>= _) >>= _
  rcases maxPool z [1, 3, 3, 1] [1, 2, 2, 1] with e | w
  · rfl
  show (runGroups get rsqrt tr tl m.groups st1 w >>= _) = (runGroups get rsqrt tr tl m.groups st1 w >>= _) >>= _
  rcases runGroups get rsqrt tr tl m.groups st1 w with e | ⟨v, st2⟩
  · rfl
  show (normed get rsqrt tr tl m.finalBn st2 v >>= _) = (normed get rsqrt tr tl m.finalBn st2 v >>= _) >>= _
  rcases normed get rsqrt tr tl m.finalBn st2 v with e | ⟨u, st3⟩
  · rfl
  show (spatialMean u >>= _) = (spatialMean u >>= _) >>= _
  rcases spatialMean u with e | t
  · rfl
  show (m.logits.call get t >>= _) = (m.logits.call get t >>= _) >>= _
  rcases m.logits.call get t with e | ⟨r, l⟩
  · rfl
  rfl

theorem good_trunk {name : String} {a : Args K} (hfit : Fits 64 (groupsOf a)) (C H W : Nat) (hp : ∀ p ∈ netParams name a C, There get p) :
    Good tr tl (trunk get rsqrt tr tl (netOf name a)) (netBns name a) [H, W, C] [lastChannels a] := by
  have hconv : Good tr tl (lift ((netOf name a).initialConv.call get)) [] [H, W, C] [up H 2, up W 2, 64] := good_conv2d (by decide) (by decide) (hp _ (by
    unfold netParams
    exact List.mem_cons_self))
  have hgr := fun H W => good_groups (tr := tr) (tl := tl) (rsqrt := rsqrt) (get := get) (a := a) (name := name) (groupsOf a) 64 0 H W (groups_pos a) hfit (fun p h => hp p (by
    unfold netParams
    simp only [List.cons_append, List.mem_cons, List.mem_append]
    exact .inr (.inl (.inl (.inr h)))))
  have hn := net_nodup name a
  have hini : Good tr tl (normed get rsqrt tr tl (netOf name a).initialBn) (if a.resnetV2 then [] else [(name ++ "/~/initial_batchnorm", 64)]) [up H 2, up W 2, 64] [up H 2, up W 2, 64] := by
    unfold netOf
    dsimp only
    cases hv : a.resnetV2 with
    | true => exact good_congr (good_id _) fun st x => rfl
    | false =>
      refine good_normed fun p h => hp p ?_
      unfold netParams
      rw [hv]
      simp only [Bool.false_eq_true, if_false, List.cons_append, List.mem_cons, List.mem_append]
      exact .inr (.inl (.inl (.inl h)))
  have hfin : ∀ H W, Good tr tl (normed get rsqrt tr tl (netOf name a).finalBn) (if a.resnetV2 then [(name ++ "/~/final_batchnorm", lastChannels a)] else []) [H, W, lastChannels a] [H, W, lastChannels a] := by
    intro H W
    unfold netOf
    dsimp only
    cases hv : a.resnetV2 with
    | false => exact good_congr (good_id _) fun st x => rfl
    | true =>
      refine good_normed fun p h => hp p ?_
      unfold netParams
      rw [hv]
      simp only [if_true, List.cons_append, List.mem_cons, List.mem_append]
      exact .inr (.inl (.inr h))
  unfold netBns at hn ⊢
  have h1 := good_comp (good_comp hconv hini (fun n h => absurd h List.not_mem_nil)) (good_comp good_maxPool (hgr _ _) (fun n h => absurd h List.not_mem_nil)) (apart_of_nodup (nodup_left hn))
  have h2 := good_comp h1 (good_comp (hfin _ _) good_spatialMean (fun n _ h => absurd h List.not_mem_nil)) (apart_of_nodup (by simpa only [List.nil_append, List.append_nil] using hn))
  exact good_mem h2 fun p => by simp only [List.nil_append, List.append_nil, List.append_assoc]

theorem last_there {name : String} {a : Args K} {C : Nat} (hp : ∀ p ∈ netParams name a C, There get p) :
    There get (name ++ "/~/" ++ a.logitsName, "w", [lastChannels a, a.numClasses]) ∧ (a.logitsBias = true → There get (name ++ "/~/" ++ a.logitsName, "b", [a.numClasses])) := by
  refine ⟨hp _ ?_, fun hb => hp _ ?_⟩
  · unfold netParams
    simp only [List.cons_append, List.mem_cons, List.mem_append]
    exact .inr (.inr (.inl trivial))
  · unfold netParams
    rw [hb, if_pos rfl]
    simp only [List.cons_append, List.mem_cons, List.mem_append]
    exact .inr (.inr (.inr (.inl trivial)))

theorem good_net {name : String} {a : Args K} (hfit : Fits 64 (groupsOf a)) (C H W : Nat) (hp : ∀ p ∈ netParams name a C, There get p) :
    Good tr tl (fun st x => (netOf name a).call get rsqrt st x tr tl) (netBns name a) [H, W, C] [a.numClasses] := by
  have hlin : Good tr tl (lift fun x : Arr K => (netOf name a).logits.call get x >>= fun p => .ok p.1) [] [lastChannels a] [a.numClasses] := good_linear rfl (last_there hp).1 (last_there hp).2
  exact good_mem (good_congr (good_comp (good_trunk (tr := tr) (tl := tl) (rsqrt := rsqrt) hfit C H W hp) hlin (fun n _ h => absurd h List.not_mem_nil)) fun st x => net_call _ st x) fun p => by rw [List.append_nil]

/-! ### What a network does -/

/-- C118: a network that could be made runs on every batch of pictures, and gives one number for each class, if its parameters have the sizes listed by `netParams` and its batch normalisations are ready. -/
theorem net_runs {name : String} {a : Args K} {m : Net K} (hm : Net.make name a = .ok m) (hfit : Fits 64 (groupsOf a)) {C : Nat} (hp : ∀ p ∈ netParams name a C, There get p) {N H W : Nat} {x : Arr K} (hx : x.shape = [N, H, W, C])
    {st : States K} (hr : ∀ b ∈ netBns name a, Ready tr tl b.2 (st b.1)) : ∃ y st', m.call get rsqrt st x tr tl = .ok (y, st') ∧ y.shape = [N, a.numClasses] := by
  obtain ⟨_, rfl⟩ := (make_iff name a m).mp hm
  obtain ⟨y, st', h1, h2, -⟩ := good_net (tr := tr) (tl := tl) (rsqrt := rsqrt) hfit C H W hp N st x hx hr
  exact ⟨y, st', h1, h2⟩

/-- C118, C122: it asks for no other parameters: it runs also where every other one is an error. -/
theorem net_asks {name : String} {a : Args K} {m : Net K} (hm : Net.make name a = .ok m) (hfit : Fits 64 (groupsOf a)) {C : Nat} (hp : ∀ p ∈ netParams name a C, There get p) {N H W : Nat} {x : Arr K} (hx : x.shape = [N, H, W, C])
    {st : States K} (hr : ∀ b ∈ netBns name a, Ready tr tl b.2 (st b.1)) (e : Err) :
    ∃ y st', m.call (fun module name' shape => if (module, name', shape) ∈ netParams name a C then get module name' shape else .error e) rsqrt st x tr tl = .ok (y, st') ∧ y.shape = [N, a.numClasses] := by
  refine net_runs hm hfit (fun p h => ?_) hx hr
  obtain ⟨v, h1, h2⟩ := hp p h
  exact ⟨v, (if_pos h).trans h1, h2⟩

/-- C118, C121: training from new states fills those of exactly the batch normalisations in `netBns`; then the network runs on every other batch of pictures, also of other sizes, in training and in evaluation. -/
theorem net_trains {name : String} {a : Args K} {m : Net K} (hm : Net.make name a = .ok m) (hfit : Fits 64 (groupsOf a)) {C : Nat} (hp : ∀ p ∈ netParams name a C, There get p) {N H W : Nat} {x : Arr K} (hx : x.shape = [N, H, W, C]) :
    ∃ y st, m.call get rsqrt (fun _ => BnState.empty) x true tl = .ok (y, st) ∧ y.shape = [N, a.numClasses] ∧ (∀ n, (∃ c, (n, c) ∈ netBns name a) ↔ st n ≠ BnState.empty) ∧
      ∀ tr' tl' N' H' W' (x' : Arr K), x'.shape = [N', H', W', C] → ∃ y' st', m.call get rsqrt st x' tr' tl' = .ok (y', st') ∧ y'.shape = [N', a.numClasses] := by
  obtain ⟨_, rfl⟩ := (make_iff name a m).mp hm
  obtain ⟨y, st, h1, h2, h3, h4, h5, h6⟩ := good_net (tr := true) (tl := tl) (rsqrt := rsqrt) hfit C H W hp N (fun _ => BnState.empty) x hx
    (fun b hb => ⟨fun _ => ⟨(fun h hh => by cases hh), (fun h hh => by cases hh)⟩, fun h => by cases h⟩)
  have hfull := h4 rfl
  refine ⟨y, st, h1, h2, fun n => ⟨?_, fun hne => ?_⟩, fun tr' tl' N' H' W' x' hx' => ?_⟩
  · rintro ⟨c, hc⟩ he
    obtain ⟨-, ⟨v, hv, -⟩, -⟩ := hfull _ hc
    rw [he] at hv
    cases hv
  · by_cases hn : n ∈ (netBns name a).map Prod.fst
    · obtain ⟨b, hb, rfl⟩ := List.mem_map.mp hn
      exact ⟨b.2, hb⟩
    · exact absurd (h3 n hn) hne
  · obtain ⟨y', st', k1, k2, -⟩ := good_net (tr := tr') (tl := tl') (rsqrt := rsqrt) hfit C H' W' hp N' st x' hx' fun b hb => (hfull b hb).ready tr' tl'
    exact ⟨y', st', k1, k2⟩

/-- The arguments of one of the standard networks. -/
def standard (c : List Nat × Bool × List Nat × List Bool) (v2 : Bool) (numClasses : Nat) (bn : BnConfig K) : Args K :=
  { blocksPerGroup := c.1, numClasses := numClasses, bnConfig := bn, resnetV2 := v2, bottleneck := c.2.1, channelsPerGroup := c.2.2.1, useProjection := c.2.2.2 }

/-- C118: the standard networks, in both versions, can be made and fit together. -/
theorem standard_fits (v2 : Bool) (numClasses : Nat) : ∀ c ∈ configs, Makes (standard (K := K) c.2 v2 numClasses {}) ∧ Fits 64 (groupsOf (standard (K := K) c.2 v2 numClasses {})) := by
  intro c hc
  simp only [configs, List.mem_cons, List.not_mem_nil, or_false] at hc
  rcases hc with rfl | rfl | rfl | rfl | rfl | rfl
  all_goals
    refine ⟨⟨rfl, rfl, Nat.le_refl _, (fun h => by cases h), (fun h => by cases h), fun _ _ _ => ⟨(fun h => by cases h), rfl⟩⟩, ?_⟩
    simp [groupsOf, standard, Fits, after, List.range, List.range.loop]

/-- C118: the number a standard network goes by counts its layers with weights: the first convolution, the two or three of each block, and the last matrix. -/
theorem standard_depth : ∀ c ∈ configs, c.1 = 1 + (if (standard (K := K) c.2 false 1 {}).bottleneck then 3 else 2) * (standard (K := K) c.2 false 1 {}).blocksPerGroup.sum + 1 := by
  intro c hc
  simp only [configs, List.mem_cons, List.not_mem_nil, or_false] at hc
  rcases hc with rfl | rfl | rfl | rfl | rfl | rfl <;> rfl

/-- C121: in evaluation, with averages, every choice of examples gives the same choice of the outputs, and no state changes. -/
theorem eval_examples {name : String} {a : Args K} {m : Net K} (hm : Net.make name a = .ok m) (hfit : Fits 64 (groupsOf a)) {C : Nat} (hp : ∀ p ∈ netParams name a C, There get p) {N H W : Nat} {x : Arr K} (hx : x.shape = [N, H, W, C])
    {st : States K} (hr : ∀ b ∈ netBns name a, Ready false false b.2 (st b.1)) {N' : Nat} {x' : Arr K} (hx' : x'.shape = [N', H, W, C]) {ρ : Nat → Nat} (hρ : ∀ e < N', ρ e < N)
    (hpull : ∀ e < N', ∀ h < H, ∀ w < W, ∀ c < C, x'.val [e, h, w, c] = x.val [ρ e, h, w, c]) :
    ∃ y y', m.call get rsqrt st x false false = .ok (y, st) ∧ m.call get rsqrt st x' false false = .ok (y', st) ∧ ∀ e < N', ∀ k < a.numClasses, y'.val [e, k] = y.val [ρ e, k] := by
  obtain ⟨_, rfl⟩ := (make_iff name a m).mp hm
  obtain ⟨y, st', h1, h2, -, -, h5, h6⟩ := good_net (tr := false) (tl := false) (rsqrt := rsqrt) hfit C H W hp N st x hx hr
  obtain rfl := h5 rfl
  obtain ⟨y', k1, k2, k3⟩ := h6 N' x' ρ hx' ⟨hρ, fun h => by cases h⟩ fun e he i hi => by
    match i, hi with
    | [h, w, c], .cons hh (.cons hw (.cons hc .nil)) => exact hpull e he h hh w hw c hc
  exact ⟨y, y', h1, k1, fun e he k hk => k3 e he [k] (.cons hk .nil)⟩

/-- C121: in training, another order of the examples gives that order of the outputs and the same states. -/
theorem train_order {name : String} {a : Args K} {m : Net K} (hm : Net.make name a = .ok m) (hfit : Fits 64 (groupsOf a)) {C : Nat} (hp : ∀ p ∈ netParams name a C, There get p) {N H W : Nat} {x : Arr K} (hx : x.shape = [N, H, W, C])
    {st : States K} (hr : ∀ b ∈ netBns name a, Ready true tl b.2 (st b.1)) {x' : Arr K} (hx' : x'.shape = [N, H, W, C]) {ρ : Nat → Nat} (hρ : ∀ e < N, ρ e < N) (hinj : ∀ e < N, ∀ e' < N, ρ e = ρ e' → e = e')
    (hpull : ∀ e < N, ∀ h < H, ∀ w < W, ∀ c < C, x'.val [e, h, w, c] = x.val [ρ e, h, w, c]) :
    ∃ y y' st', m.call get rsqrt st x true tl = .ok (y, st') ∧ m.call get rsqrt st x' true tl = .ok (y', st') ∧ ∀ e < N, ∀ k < a.numClasses, y'.val [e, k] = y.val [ρ e, k] := by
  obtain ⟨_, rfl⟩ := (make_iff name a m).mp hm
  obtain ⟨y, st', h1, h2, -, -, h5, h6⟩ := good_net (tr := true) (tl := tl) (rsqrt := rsqrt) hfit C H W hp N st x hx hr
  obtain ⟨y', k1, k2, k3⟩ := h6 N x' ρ hx' ⟨hρ, fun _ => ⟨rfl, hinj⟩⟩ fun e he i hi => by
    match i, hi with
    | [h, w, c], .cons hh (.cons hw (.cons hc .nil)) => exact hpull e he h hh w hw c hc
  exact ⟨y, y', st', h1, k1, fun e he k hk => k3 e he [k] (.cons hk .nil)⟩

end Run

/-! ### Cases -/

/-- Parameters of all sizes. -/
def anyGet : ParamFn ℚ := fun _ name shape => .ok ⟨shape, fun i => if name = "w" then i.sum + 1 else if name = "scale" then 2 else 1⟩

theorem anyGet_there (p : Param) : There anyGet p := ⟨_, rfl, rfl⟩

/-- ResNet50 on pictures of 3 channels, with 1000 classes. -/
def fifty (v2 : Bool) : Args ℚ := standard ([3, 4, 6, 3], true, [256, 512, 1024, 2048], [true, true, true, true]) v2 1000 {}

theorem fifty_fits (v2 : Bool) : Makes (fifty v2) ∧ Fits 64 (groupsOf (fifty v2)) := standard_fits v2 1000 (50, _) (by simp [configs])

theorem fifty_made (v2 : Bool) : Net.make "resnet50" (fifty v2) = .ok (netOf "resnet50" (fifty v2)) := (make_iff _ _ _).mpr ⟨(fifty_fits v2).1, rfl⟩

-- ResNet50 runs on a batch of 2 pictures of 224 × 224 pixels, in training on new states; the hypotheses of `net_runs`, `net_asks`, `net_trains` and `train_order` hold
example (rsqrt : ℚ → ℚ) (x : Arr ℚ) (hx : x.shape = [2, 224, 224, 3]) : ∃ y st', (netOf "resnet50" (fifty true)).call anyGet rsqrt (fun _ => BnState.empty) x true false = .ok (y, st') ∧ y.shape = [2, 1000] :=
  net_runs (fifty_made true) (fifty_fits true).2 (fun p _ => anyGet_there p) hx fun b hb => ⟨fun _ => ⟨(fun h hh => by cases hh), (fun h hh => by cases hh)⟩, fun h => by cases h⟩

-- a batch and the same batch in another order
example (rsqrt : ℚ → ℚ) : ∃ y y' st', (netOf "resnet50" (fifty false)).call anyGet rsqrt (fun _ => BnState.empty) ⟨[2, 1, 1, 3], fun i => (i.headD 0 : Nat)⟩ true false = .ok (y, st') ∧
    (netOf "resnet50" (fifty false)).call anyGet rsqrt (fun _ => BnState.empty) ⟨[2, 1, 1, 3], fun i => ((1 - i.headD 0 : Nat) : ℚ)⟩ true false = .ok (y', st') ∧ ∀ e < 2, ∀ k < 1000, y'.val [e, k] = y.val [1 - e, k] :=
  train_order (fifty_made false) (fifty_fits false).2 (fun p _ => anyGet_there p) rfl (fun b hb => ⟨fun _ => ⟨(fun h hh => by cases hh), (fun h hh => by cases hh)⟩, fun h => by cases h⟩) rfl (ρ := fun e => 1 - e)
    (by decide) (by decide) (fun e _ h _ w _ c _ => rfl)

/-- Averages for all batch normalisations of ResNet50. -/
def averages : States ℚ := fun n => ⟨⟨some 1, none, some ⟨[1, 1, 1, ((netBns "resnet50" (fifty false)).lookup n).getD 0], fun _ => 0⟩⟩, ⟨some 1, none, some ⟨[1, 1, 1, ((netBns "resnet50" (fifty false)).lookup n).getD 0], fun _ => 1⟩⟩⟩

-- a batch and one of its examples, in evaluation with averages
example (rsqrt : ℚ → ℚ) (x : Arr ℚ) (hx : x.shape = [2, 7, 5, 3]) : ∃ y y', (netOf "resnet50" (fifty false)).call anyGet rsqrt averages x false false = .ok (y, averages) ∧
    (netOf "resnet50" (fifty false)).call anyGet rsqrt averages ⟨[1, 7, 5, 3], fun i => x.val (1 :: i.tail)⟩ false false = .ok (y', averages) ∧ ∀ e < 1, ∀ k < 1000, y'.val [e, k] = y.val [1, k] := by
  refine eval_examples (fifty_made false) (fifty_fits false).2 (fun p _ => anyGet_there p) hx (fun b hb => ⟨(fun h => by cases h), fun _ _ => ?_⟩) rfl (ρ := fun _ => 1) (by decide) (fun e _ h _ w _ c _ => rfl)
  have key : ∀ b ∈ netBns "resnet50" (fifty false), ((netBns "resnet50" (fifty false)).lookup b.1).getD 0 = b.2 := by decide +kernel
  exact ⟨⟨_, rfl, by rw [← key b hb]⟩, ⟨_, rfl, by rw [← key b hb]⟩⟩

-- the numbers of parameters of the six networks in version 1, and of ResNet50 in version 2
example : (configs.map fun c => ((netParams "resnet" (standard (K := ℚ) c.2 false 1000 {}) 3).map fun p => p.2.2.prod).sum) = [11689512, 21797672, 25557032, 44549160, 60192808, 64673832] := by decide +kernel
example : ((netParams "resnet50" (fifty true) 3).map fun p => p.2.2.prod).sum = 25549352 := by decide +kernel

-- 53 batch normalisations in version 1, 49 in version 2
example : (netBns "resnet50" (fifty false)).length = 53 ∧ (netBns "resnet50" (fifty true)).length = 49 := by decide +kernel

/-- The error of a result. -/
def errorOf {α : Type} : Except Err α → Option Err
  | .ok _ => none
  | .error e => some e

-- too few or too many groups; too few flags for the projections are another error, too many are none
example : errorOf (Net.make (K := ℚ) "r" { blocksPerGroup := [1, 1, 1], numClasses := 2 }) = some .value := by decide +kernel
example : errorOf (Net.make (K := ℚ) "r" { blocksPerGroup := [1, 1, 1, 1], numClasses := 2, channelsPerGroup := [4, 4, 4, 4, 4] }) = some .value := by decide +kernel
example : errorOf (Net.make (K := ℚ) "r" { blocksPerGroup := [1, 1, 1, 1], numClasses := 2, useProjection := [true, true, true] }) = some .index := by decide +kernel
example : errorOf (Net.make (K := ℚ) "r" { blocksPerGroup := [1, 1, 1, 1], numClasses := 2, useProjection := [true, true, true, true, false] }) = none := by decide +kernel

-- without scales, or with another initializer for them, the bottleneck blocks of version 1 can not be made; those of version 2 can
example : errorOf (Net.make (K := ℚ) "r" { blocksPerGroup := [1, 1, 1, 1], numClasses := 2, bnConfig := { createScale := some false } }) = some .value := by decide +kernel
example : errorOf (Net.make (K := ℚ) "r" { blocksPerGroup := [1, 1, 1, 1], numClasses := 2, bnConfig := { scaleInit := true } }) = some .type := by decide +kernel
example : errorOf (Net.make (K := ℚ) "r" { blocksPerGroup := [1, 1, 1, 1], numClasses := 2, bnConfig := { createScale := some false }, resnetV2 := true }) = none := by decide +kernel
example : errorOf (Net.make (K := ℚ) "r" { blocksPerGroup := [1, 1, 1, 1], numClasses := 2, bnConfig := { createScale := some false }, bottleneck := false }) = none := by decide +kernel

end Verif.Props.ResNet
