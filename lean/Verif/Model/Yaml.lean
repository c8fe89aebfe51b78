import Mathlib.Data.String.Basic
import Verif.Model.Collision

/-!
# Collision settings: YAML, cereal and comparison

Models

* `/repo/trajopt_common/include/trajopt_common/yaml_extensions.h` 38-92 (`convert<CollisionCoeffData>`), 95-149
  (`convert<TrajOptCollisionConfig>`)
* `/repo/trajopt_common/include/trajopt_common/cereal_serialization.h` 13-34
* `/repo/trajopt_common/include/trajopt_common/collision_types.h` 126-166 and
  `/repo/trajopt_common/src/collision_types.cpp` 77-122 (`operator==`, constructor)

The nodes are the data structure of yaml-cpp; emitting text and parsing it are yaml-cpp's business and are not modelled.
The conversions of `double`, `int`, `bool` and of tesseract's `ContactManagerConfig` and `CollisionCheckConfig` are
parameters (`Codec`).  An `unordered_map` is iterated in an arbitrary order, which is a parameter as well.
-/

namespace Verif.Yaml

open Verif.Collision

universe u v

/-- `YAML::Node`. -/
inductive Node where
  | null
  | scalar (s : String)
  | seq (l : List Node)
  | map (l : List (Node × Node))

/-- `YAML::convert<T>`: `enc`, and `as<T>()` of a node, `none` when that throws. -/
structure Codec (α : Type u) where
  enc : α → Node
  dec : Node → Option α

/-- A decoder answers `false` (`refused`) or throws (`threw`). -/
inductive Fail where
  | refused
  | threw
  deriving DecidableEq

/-- `as<std::string>()`, yaml-cpp 0.8: a null node reads as "null", other nodes without text throw. -/
def asString : Node → Option String
  | .scalar s => some s
  | .null => some "null"
  | _ => none

/-- Whether the node is the key `k` (`node["k"]` compares scalars). -/
def Node.isKey (k : String) : Node → Bool
  | .scalar s => s = k
  | _ => false

/-- `node["k"]` of a map: the value of the first entry with that key; `none` is an undefined node. -/
def Node.find (k : String) : Node → Option Node
  | .map l => (l.find? fun e => e.1.isKey k).map Prod.snd
  | _ => none

/-- `if (const YAML::Node& n = node["k"]) f(n.as<T>())`: nothing for an undefined node, throws for a bad one. -/
def optional {α : Type u} {β : Type v} (n : Node) (k : String) (dec : Node → Option α) (f : α → β → β) (b : β) :
    Except Fail β :=
  match n.find k with
  | none => .ok b
  | some m =>
    match dec m with
    | none => .error .threw
    | some a => .ok (f a b)

/-! ### CollisionCoeffData -/

section coeff

variable {K : Type u}

/-- The entry of one pair, yaml_extensions.h 53-60: a two element sequence as key. -/
def encodePair (num : Codec K) (e : (String × String) × K) : Node × Node :=
  (.seq [.scalar e.1.1, .scalar e.1.2], num.enc e.2)

/-- `encode`, yaml_extensions.h 41-67; `order` is the order in which the map is iterated.  Assigning through a node key
turns the empty sequence of line 52 into a map. -/
def encodeCoeff (num : Codec K) (c : CoeffData String K) (order : List ((String × String) × K)) : Node :=
  .map ((.scalar "default_coeff", num.enc c.dflt) ::
    if order = [] then [] else [(.scalar "pair_coeff_data", .map (order.map (encodePair num)))])

/-- One turn of the loop 79-86. -/
def decodePair (isZero : K → Bool) (num : Codec K) (e : Node × Node) (c : CoeffData String K) :
    Except Fail (CoeffData String K) :=
  match e.1 with
  | .seq [x, y] =>
    match asString x, asString y, num.dec e.2 with
    | some a, some b, some v => .ok (c.set isZero a b v)
    | _, _, _ => .error .threw
  | _ => .error .refused

/-- The loop 79-86. -/
def decodePairs (isZero : K → Bool) (num : Codec K) : List (Node × Node) → CoeffData String K →
    Except Fail (CoeffData String K)
  | [], c => .ok c
  | e :: es, c =>
    match decodePair isZero num e c with
    | .error f => .error f
    | .ok c' => decodePairs isZero num es c'

/-- Iterating the value of `pair_coeff_data`: a map gives pairs; the elements of a sequence have no `first`
(`InvalidNode` is thrown); scalars and null have no elements. -/
def decodeTable (isZero : K → Bool) (num : Codec K) (n : Node) (c : CoeffData String K) :
    Except Fail (CoeffData String K) :=
  match n with
  | .map l => decodePairs isZero num l c
  | .seq (_ :: _) => .error .threw
  | _ => .ok c

/-- `decode`, yaml_extensions.h 69-91. -/
def decodeCoeff (isZero : K → Bool) (num : Codec K) (n : Node) (c : CoeffData String K) :
    Except Fail (CoeffData String K) :=
  match n with
  | .map _ =>
    match optional n "default_coeff" num.dec (fun d c => c.setDefault d) c with
    | .error f => .error f
    | .ok c =>
      match n.find "pair_coeff_data" with
      | none => .ok c
      | some m => decodeTable isZero num m c
  | _ => .error .refused

/-- `as<CollisionCoeffData>()`: a default constructed object (coefficient 1), then `decode`; throws when it fails. -/
def asCoeff [One K] (isZero : K → Bool) (num : Codec K) (n : Node) : Option (CoeffData String K) :=
  match decodeCoeff isZero num n (CoeffData.new 1) with
  | .ok c => some c
  | .error _ => none

end coeff

/-! ### TrajOptCollisionConfig -/

/-- `struct TrajOptCollisionConfig`, collision_types.h 126-166; `CM` and `CC` are tesseract's two structures. -/
structure Config (CM : Type*) (CC : Type*) (K : Type*) where
  enabled : Bool
  manager : CM
  check : CC
  coeff : CoeffData String K
  buffer : K
  maxCnt : Int

/-- What the conversions of yaml-cpp and tesseract do. -/
structure Codecs (CM CC K : Type*) where
  num : Codec K
  int : Codec Int
  bool : Codec Bool
  manager : Codec CM
  check : Codec CC
  /-- `ContactManagerConfig::scaleMargins`. -/
  scale : K → CM → CM

section config

variable {CM CC K : Type*}

/-- `encode`, yaml_extensions.h 97-107. -/
def encodeConfig (d : Codecs CM CC K) (c : Config CM CC K) (order : List ((String × String) × K)) : Node :=
  .map [(.scalar "enabled", d.bool.enc c.enabled),
    (.scalar "contact_manager_config", d.manager.enc c.manager),
    (.scalar "collision_check_config", d.check.enc c.check),
    (.scalar "collision_coeff_data", encodeCoeff d.num c.coeff order),
    (.scalar "collision_margin_buffer", d.num.enc c.buffer),
    (.scalar "max_num_cnt", d.int.enc c.maxCnt)]

/-- `decode`, yaml_extensions.h 109-136. -/
def decodeConfig [One K] (isZero : K → Bool) (d : Codecs CM CC K) (n : Node) (c : Config CM CC K) :
    Except Fail (Config CM CC K) :=
  match n with
  | .map _ => do
    let c ← optional n "enabled" d.bool.dec (fun x c => { c with enabled := x }) c
    let c ← optional n "contact_manager_config" d.manager.dec (fun x c => { c with manager := x }) c
    let c ← optional n "collision_check_config" d.check.dec (fun x c => { c with check := x }) c
    let c ← optional n "collision_coeff_data" (asCoeff isZero d.num) (fun x c => { c with coeff := x }) c
    let c ← optional n "collision_margin_buffer" d.num.dec (fun x c => { c with buffer := x }) c
    let c ← optional n "max_num_cnt" d.int.dec (fun x c => { c with maxCnt := x }) c
    optional n "scale_margins" d.num.dec (fun x c => { c with manager := d.scale x c.manager }) c
  | _ => .error .refused

end config

/-! ### Comparison -/

section eq

variable {K : Type u} [Field K] [LinearOrder K]

/-- `almostEqualRelativeAndAbs` (tesseract): close, or close compared to the larger one. -/
def almostEq (maxDiff maxRel a b : K) : Bool :=
  if |a - b| ≤ maxDiff then true else |a - b| ≤ max |a| |b| * maxRel

/-- `isIdenticalMap` (tesseract): as many entries, and each key of the first found in the second with an equal value. -/
def identicalMap (eq : K → K → Bool) (s t : List ((String × String) × K)) : Bool :=
  s.length = t.length && s.all fun e =>
    match tableFind t e.1 with
    | none => false
    | some v => eq e.2 v

/-- `std::set` comparison. -/
def sameSet (s t : List (String × String)) : Bool := s.all (fun p => decide (p ∈ t)) && t.all fun p => decide (p ∈ s)

/-- `CollisionCoeffData::operator==`, collision_types.cpp 77-92; `feps` is `numeric_limits<float>::epsilon()`, `deps`
the one of `double`. -/
def eqCoeff (feps deps : K) (c c' : CoeffData String K) : Bool :=
  almostEq feps deps c.dflt c'.dflt && identicalMap (almostEq feps deps) c.table c'.table && sameSet c.zero c'.zero

/-- `TrajOptCollisionConfig::operator==`, 108-120. -/
def eqConfig {CM CC : Type*} (eqM : CM → CM → Bool) (eqC : CC → CC → Bool) (feps deps : K) (c c' : Config CM CC K) : Bool :=
  c.enabled = c'.enabled && eqM c.manager c'.manager && eqC c.check c'.check && eqCoeff feps deps c.coeff c'.coeff &&
    almostEq feps deps c.buffer c'.buffer && c.maxCnt = c'.maxCnt

end eq

/-! ### cereal -/

section cereal

variable {K : Type u}

/-- What an archive holds, in writing order. -/
inductive Tok (K : Type u) where
  | num (x : K)
  | size (n : Nat)
  | name (s : String)

/-- A pair of names. -/
def savePair (p : String × String) : List (Tok K) := [.name p.1, .name p.2]

/-- `serialize` when writing, cereal_serialization.h 13-19 with cereal's containers: the size, then the entries; `order`
and `zorder` are the iteration orders of the map and the set. -/
def saveCoeff (c : CoeffData String K) (order : List ((String × String) × K)) (zorder : List (String × String)) :
    List (Tok K) :=
  [.num c.dflt] ++ (.size order.length :: order.flatMap fun e => savePair e.1 ++ [.num e.2]) ++
    (.size zorder.length :: zorder.flatMap savePair)

/-- cereal's `load` of an unordered_map: `n` entries, inserted one after the other. -/
def loadTable : Nat → List (Tok K) → List ((String × String) × K) → Option (List ((String × String) × K) × List (Tok K))
  | 0, ts, t => some (t, ts)
  | n + 1, .name a :: .name b :: .num v :: ts, t =>
    loadTable n ts (match tableFind t (a, b) with | none => t ++ [((a, b), v)] | some _ => t)
  | _ + 1, _, _ => none

/-- cereal's `load` of a set. -/
def loadSet : Nat → List (Tok K) → List (String × String) → Option (List (String × String) × List (Tok K))
  | 0, ts, s => some (s, ts)
  | n + 1, .name a :: .name b :: ts, s => loadSet n ts (if (a, b) ∈ s then s else s ++ [(a, b)])
  | _ + 1, _, _ => none

/-- `serialize` when reading: the containers are cleared first. -/
def loadCoeff : List (Tok K) → Option (CoeffData String K × List (Tok K))
  | .num d :: .size n :: ts =>
    match loadTable n ts [] with
    | some (t, .size m :: ts) =>
      match loadSet m ts [] with
      | some (z, ts) => some (⟨d, t, z⟩, ts)
      | none => none
    | _ => none
  | _ => none

end cereal

end Verif.Yaml
