import Verif.Random.PseudoModel
import Verif.Strings.StringModel

/-!
# Generators of pseudo-random numbers as objects

Model of `PseudoRandom_` and `PseudoRSG_` (`dal/math/random/pseudorandom.hpp` 32–71), of their functions in `pseudorandom.cpp` 15–39, 80–86,
137–141, 238–248, of the kinds of generators read from a text (`dal/auto/MG_RNGType_enum.inc` 31–62) and of the public functions on them
(`public/src/random.hpp` 14–53, `public/excel/__random.cpp` 97–108), on top of the two generators of `PseudoModel`.

Simplifications: uniform numbers are exact quotients; the inverse of the normal distribution is a parameter, taking the flag `precise_`;
seeds and dimensions are integers already (the conversions from `double` are those of the callers); counts of paths are not negative. Undefined
behaviour and exceptions are `none`.
-/

namespace Dal.RsgObject

open Dal.Rng Dal.Strings

/-- The two kinds of generators, with the members that are never changed: `seed_` (`pseudorandom.cpp` 48), `a_` and `b_` (line 98). -/
inductive Gen where
  | irn (seed : Int) (s : Irn)
  | mrg (a b : Nat) (s : Mrg)
  deriving DecidableEq

/-- `NextUniform` (`pseudorandom.cpp` 58–65, 112–135). -/
def Gen.next : Gen → Option (Rat × Gen)
  | .irn seed s => s.next.map fun r => (irnUniform r.1, .irn seed r.2)
  | .mrg a b s => some (s.next.1, .mrg a b s.next.2)

/-- A generator: the members of `PseudoRandom_` (`pseudorandom.hpp` 33–36, 48) and those of the kind. -/
structure Pseudo where
  gen : Gen
  cache : List Rat
  anti : Bool
  precise : Bool
  deriving DecidableEq

/-- The loop that draws `n` numbers (`pseudorandom.cpp` 21–22, 31–34). -/
def draws : Nat → Gen → Option (List Rat × Gen)
  | 0, g => some ([], g)
  | n + 1, g => g.next.bind fun r => (draws n r.2).map fun q => (r.1 :: q.1, q.2)

/-- `FillUniform` (`pseudorandom.cpp` 15–25) into a vector of size `n`. -/
def Pseudo.fillUniform (n : Nat) (p : Pseudo) : Option (List Rat × Pseudo) :=
  if p.cache.length < n then none
  else if p.anti then some ((p.cache.take n).map (1 - ·), { p with anti := false })
  else (draws n p.gen).map fun r => (r.1, { p with gen := r.2, cache := r.1 ++ p.cache.drop n, anti := true })

/-- `FillNormal` (`pseudorandom.cpp` 29–39) into a vector of size `n`. -/
def Pseudo.fillNormal {β : Type} (inv : Bool → Rat → β) (n : Nat) (p : Pseudo) : Option (List β × Pseudo) :=
  (draws n p.gen).map fun r => (r.1.map (inv p.precise), { p with gen := r.2 })

/-- `RNGType_` (`pseudorandom.hpp` 14–19). -/
inductive Kind where
  | IRN
  | MRG32
  deriving DecidableEq

/-- `ReadStringRNGType_` (`MG_RNGType_enum.inc` 31–62): `none` when the constructor throws. -/
def readKind (sgn : Bool) (src : Str) : Option Kind :=
  if src = [] then none
  else if equivalent sgn src "IRN".toList then some .IRN
  else if equivalent sgn src "SHUFFLEDIRN".toList then some .IRN
  else if equivalent sgn src "MRG32".toList then some .MRG32
  else if equivalent sgn src "MRG32K32A".toList then some .MRG32
  else none

/-- The conversion of an `int` to `unsigned`. -/
def toUnsigned (i : Int) : Nat := (i % 2 ^ 32).toNat

/-- The conversion of an `unsigned` to `int`. -/
def toSigned (u : Nat) : Int := if u < 2 ^ 31 then (u : Int) else (u : Int) - 2 ^ 32

/-- The constructor of `ShuffledIRN_` (`pseudorandom.cpp` 67–78). -/
def newIrn (seed : Int) (nDim : Nat) (precise : Bool) : Option Pseudo :=
  (Irn.create (toUnsigned seed)).map fun s => ⟨.irn seed s, List.replicate nDim 0, false, precise⟩

/-- The constructor of `MRG32k32a_` (`pseudorandom.cpp` 101–104). -/
def newMrg (a b : Nat) (nDim : Nat) (precise : Bool) : Pseudo := ⟨.mrg a b (Mrg.reset a b), List.replicate nDim 0, false, precise⟩

/-- `New` (`pseudorandom.cpp` 239–248): `seed + 1` may overflow. -/
def newPseudo (k : Kind) (seed : Int) (nDim : Nat) (precise : Bool) : Option Pseudo :=
  match k with
  | .IRN => newIrn seed nDim precise
  | .MRG32 => if seed + 1 ≤ 2147483647 then some (newMrg (toUnsigned seed) (toUnsigned (seed + 1)) nDim precise) else none

/-- `Clone` (`pseudorandom.cpp` 84, 139–141). -/
def Pseudo.clone (p : Pseudo) : Option Pseudo :=
  match p.gen with
  | .irn seed _ => newIrn seed p.cache.length false
  | .mrg a b _ => some (newMrg a b p.cache.length false)

/-- `Branch` (`pseudorandom.cpp` 80–82, 137). -/
def Pseudo.branch (p : Pseudo) (_child : Int) : Option Pseudo :=
  match p.gen with
  | .irn _ s =>
    match s.irn with
    | x :: y :: _ => newIrn (toSigned ((x ^^^ y) % 2 ^ 32)) 1 false
    | _ => none
  | .mrg _ _ _ => some (newMrg 12345 12346 1 false)

/-- A `PseudoRSG_` (`pseudorandom.hpp` 54–71). -/
structure Obj where
  name : Str
  seed : Int
  nDim : Int
  precise : Bool
  rsg : Pseudo
  deriving DecidableEq

/-- The constructor (`pseudorandom.hpp` 60–63): the name is the kind; a negative dimension cannot be converted. -/
def newObj (sgn : Bool) (name : Str) (seed nDim : Int) (precise : Bool) : Option Obj :=
  (readKind sgn name).bind fun k => if nDim < 0 then none else (newPseudo k seed nDim.toNat precise).map fun r => ⟨name, seed, nDim, precise, r⟩

/-- What `Write` stores (`pseudorandom.cpp` 253–255). -/
def Obj.write (o : Obj) : Str × Int × Int × Bool := (o.name, o.seed, o.nDim, o.precise)

/-- The loop of `GetPseudoRSGUniform` (`public/src/random.hpp` 22–31), over the rows. -/
def getUniform (d : Nat) : Nat → Pseudo → Option (List (List Rat) × Pseudo)
  | 0, p => some ([], p)
  | n + 1, p => (p.fillUniform d).bind fun r => (getUniform d n r.2).map fun q => (r.1 :: q.1, q.2)

/-- The loop of `GetPseudoRSGNormal` (`public/src/random.hpp` 43–52), over the rows. -/
def getNormal {β : Type} (inv : Bool → Rat → β) (d : Nat) : Nat → Pseudo → Option (List (List β) × Pseudo)
  | 0, p => some ([], p)
  | n + 1, p => (p.fillNormal inv d).bind fun r => (getNormal inv d n r.2).map fun q => (r.1 :: q.1, q.2)

/-- `PseudoRSG_Get_Uniform` (`__random.cpp` 102–104), on an object: its generator is changed though the object is constant. -/
def Obj.getUniform (o : Obj) (n : Nat) : Option (List (List Rat) × Obj) :=
  (RsgObject.getUniform o.rsg.cache.length n o.rsg).map fun r => (r.1, { o with rsg := r.2 })

/-- `PseudoRSG_Get_Normal` (`__random.cpp` 106–108). -/
def Obj.getNormal {β : Type} (inv : Bool → Rat → β) (o : Obj) (n : Nat) : Option (List (List β) × Obj) :=
  (RsgObject.getNormal inv o.rsg.cache.length n o.rsg).map fun r => (r.1, { o with rsg := r.2 })

end Dal.RsgObject
