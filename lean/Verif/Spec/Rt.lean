import Verif.Model.Rt

/-
  What the types of a program are, and what a reference to a type in the tables of an
  assembly means once the type parameters have values.

  The structure of a reference is the one the reader of the compiler gives
  (`Verif.Model.Asm`, whose agreement with the source program is C86); a row of a table is a
  `Node`.
-/

namespace Verif.Rt.Spec

open Verif.Asm

/-- A type without type parameters: a class (its assembly and its row), an instance of a
    generic class inside the type `host`, an array, or a type that is not known. -/
inductive Ty where
  | cls (a i : Nat)
  | inst (a i : Nat) (host : Option Ty) (args : List Ty)
  | arr (element : Ty) (dimension : Nat)
  | hole (i : Nat)

/-- The object `o` of the virtual machine stands for the type. -/
inductive Is (P : Pool) : Obj → Ty → Prop
  | cls {o a i} : P[o]? = some (.general a i) → Is P o (.cls a i)
  | inst {o ot a i} {h : Option Obj} {os : List Obj} {hu : Option Ty} {us : List Ty} :
      P[o]? = some (.generic ot h os) → P[ot]? = some (.general a i) →
      h.isSome = hu.isSome → (∀ oh u, h = some oh → hu = some u → Is P oh u) →
      os.length = us.length →
      (∀ (k : Nat) oa u, os[k]? = some oa → us[k]? = some u → Is P oa u) →
      Is P o (.inst a i hu us)
  | arr {o e d u} : P[o]? = some (.array e d) → Is P e u → Is P o (.arr u d)
  | hole {o i} : P[o]? = some (.holder i) → Is P o (.hole i)

/-- The objects stand for the types, one by one. -/
def AreAll (P : Pool) (os : List Obj) (us : List Ty) : Prop :=
  os.length = us.length ∧
    ∀ (k : Nat) o u, os[k]? = some o → us[k]? = some u → Is P o u

/-- The name of a type parameter. -/
def nameOf (t : Tables) (p : Nat) : String := textAt (rowOf t (.genericParam, p)) "name"

/-- The type parameter stands for any number of types (`params`, include/modules/core.h:
    2753). -/
def Pack (t : Tables) (p : Nat) : Prop :=
  numAt (rowOf t (.genericParam, p)) "param_type" = 3

instance (t : Tables) (p : Nat) : Decidable (Pack t p) := inferInstanceAs (Decidable (_ = _))

/-- The type parameters of a class, as the reader gives them. -/
def Params (t : Tables) (i : Nat) (gs : List Nat) : Prop :=
  getMany t .genericParam (refAt (rowOf t (.type, i)) "generic_params") =
    .ok (gs.map fun g => (.genericParam, g))

/-- A class with these type parameters takes this many arguments. -/
def Takes (t : Tables) (gs : List Nat) (count : Nat) : Prop :=
  (∃ g, gs.getLast? = some g ∧ Pack t g ∧ gs.length ≤ count + 1) ∨
  ((∀ g, gs.getLast? = some g → ¬ Pack t g) ∧ count = gs.length)

/-- The first class of the tables with this namespace, name and number of type parameters. -/
def FirstNamed (t : Tables) (ns name : String) (count : Nat) (c : Nat) : Prop :=
  let named (i : Nat) := textAt (rowOf t (.type, i)) "namespace" = ns ∧
    textAt (rowOf t (.type, i)) "name" = name ∧
    (refAt (rowOf t (.type, i)) "generic_params").count = count
  c < (t .type).length ∧ named c ∧ ∀ i, i < c → ¬ named i

mutual

/-- The type that a row of the tables of assembly `a` stands for, where `bind` tells what the
    type parameters stand for. -/
inductive Means (S : System) (a : Nat) (bind : Nat → List Ty → Prop) : Node → Ty → Prop
  | own {i} : Means S a bind (.type, i) (.cls a i)
  | foreign {i j b c} :
      getOne (S.tables a) .assemblyRef (refAt (rowOf (S.tables a) (.typeRef, i)) "assembly") =
        .ok (some (.assemblyRef, j)) →
      S.find (textAt (rowOf (S.tables a) (.assemblyRef, j)) "package")
        (textAt (rowOf (S.tables a) (.assemblyRef, j)) "name") = some b →
      FirstNamed (S.tables b) (textAt (rowOf (S.tables a) (.typeRef, i)) "namespace")
        (textAt (rowOf (S.tables a) (.typeRef, i)) "name")
        (numAt (rowOf (S.tables a) (.typeRef, i)) "generic_param_count") c →
      Means S a bind (.typeRef, i) (.cls b c)
  | array {i e u} :
      Asm.getType (S.tables a) (refAt (rowOf (S.tables a) (.arrayType, i)) "element_type") =
        .ok (some e) →
      Means S a bind e u →
      Means S a bind (.arrayType, i)
        (.arr u (numAt (rowOf (S.tables a) (.arrayType, i)) "dimension"))
  | generic {i n b c h hu gs ns us} :
      Asm.getType (S.tables a) (refAt (rowOf (S.tables a) (.genericType, i)) "template") =
        .ok (some n) →
      Means S a bind n (.cls b c) →
      Asm.getType (S.tables a) (refAt (rowOf (S.tables a) (.genericType, i)) "host") = .ok h →
      MeansHost S a bind h hu →
      Params (S.tables b) c gs →
      getThrough (S.tables a) .genericArgument
        (refAt (rowOf (S.tables a) (.genericType, i)) "args") = .ok ns →
      Takes (S.tables b) gs ns.length →
      MeansArgs S a bind ns us →
      Means S a bind (.genericType, i) (.inst b c hu us)
  | param {p u} : ¬ Pack (S.tables a) p → bind p [u] → Means S a bind (.genericParam, p) u

/-- The type around an instance; there may be none. -/
inductive MeansHost (S : System) (a : Nat) (bind : Nat → List Ty → Prop) :
    Option Node → Option Ty → Prop
  | none : MeansHost S a bind none none
  | some {n u} : Means S a bind n u → MeansHost S a bind (some n) (some u)

/-- The types that a list of type arguments stands for. -/
inductive MeansArgs (S : System) (a : Nat) (bind : Nat → List Ty → Prop) :
    List (Option Node) → List Ty → Prop
  | nil : MeansArgs S a bind [] []
  | pack {p ns us vs} : Pack (S.tables a) p → bind p us → MeansArgs S a bind ns vs →
      MeansArgs S a bind (some (.genericParam, p) :: ns) (us ++ vs)
  | type {n ns u vs} : (∀ p, n = (.genericParam, p) → ¬ Pack (S.tables a) p) →
      Means S a bind n u → MeansArgs S a bind ns vs →
      MeansArgs S a bind (some n :: ns) (u :: vs)

end

/-- The type parameter `p` occurs in the type of the row. -/
inductive Mentions (t : Tables) : Node → Nat → Prop
  | itself {p} : Mentions t (.genericParam, p) p
  | element {i e p} :
      Asm.getType t (refAt (rowOf t (.arrayType, i)) "element_type") = .ok (some e) →
      Mentions t e p → Mentions t (.arrayType, i) p
  | template {i n p} :
      Asm.getType t (refAt (rowOf t (.genericType, i)) "template") = .ok (some n) →
      Mentions t n p → Mentions t (.genericType, i) p
  | host {i n p} :
      Asm.getType t (refAt (rowOf t (.genericType, i)) "host") = .ok (some n) →
      Mentions t n p → Mentions t (.genericType, i) p
  | arg {i ns n p} :
      getThrough t .genericArgument (refAt (rowOf t (.genericType, i)) "args") = .ok ns →
      some n ∈ ns → Mentions t n p → Mentions t (.genericType, i) p

/-- What the type parameter `p` of assembly `a` stands for inside the type: the type argument
    at its place, or, when no parameter of the class has its name, what it stands for in the
    type around. -/
inductive Gives (S : System) (a : Nat) : Ty → Nat → List Ty → Prop
  | own {b i h args gs p u} {k : Nat} : Params (S.tables b) i gs → gs[k]? = some p →
      (∀ (j : Nat) q, j ≤ k → gs[j]? = some q → ¬ Pack (S.tables a) q) →
      (∀ (j : Nat) q, gs[j]? = some q → nameOf (S.tables a) q = nameOf (S.tables a) p → j = k) →
      args[k]? = some u → Gives S a (.inst b i h args) p [u]
  | pack {b i h args gs p} {k : Nat} : Params (S.tables b) i gs → gs[k]? = some p →
      Pack (S.tables a) p →
      (∀ (j : Nat) q, j < k → gs[j]? = some q → ¬ Pack (S.tables a) q) →
      (∀ (j : Nat) q, gs[j]? = some q → nameOf (S.tables a) q = nameOf (S.tables a) p → j = k) →
      Gives S a (.inst b i h args) p (args.drop k)
  | outer {b i u args gs p us} : Params (S.tables b) i gs →
      (∀ q ∈ gs, nameOf (S.tables a) q ≠ nameOf (S.tables a) p) →
      Gives S a u p us → Gives S a (.inst b i (some u) args) p us

/-- The type parameters that stand for one type each, up to the one that stands for all the
    rest. -/
def singles (t : Tables) (gs : List Nat) : List Nat := gs.takeWhile fun g => ¬ Pack t g

/-- An instance, inside instances only, with an argument for every single type parameter, in
    which all single type parameters have different names: `names`. -/
inductive Distinct (S : System) (a : Nat) : Ty → List String → Prop
  | top {b i args gs} : Params (S.tables b) i gs →
      (∀ g ∈ gs, g < (S.tables a .genericParam).length) →
      (singles (S.tables a) gs).length ≤ args.length →
      ((singles (S.tables a) gs).map (nameOf (S.tables a))).Nodup →
      Distinct S a (.inst b i none args) ((singles (S.tables a) gs).map (nameOf (S.tables a)))
  | nested {b i args gs u names} : Distinct S a u names → Params (S.tables b) i gs →
      (∀ g ∈ gs, g < (S.tables a .genericParam).length) →
      (singles (S.tables a) gs).length ≤ args.length →
      (names ++ (singles (S.tables a) gs).map (nameOf (S.tables a))).Nodup →
      Distinct S a (.inst b i (some u) args)
        (names ++ (singles (S.tables a) gs).map (nameOf (S.tables a)))

/-- The type arguments for type parameters: what each of them stands for, one after the
    other. -/
inductive Values (bind : Nat → List Ty → Prop) : List Nat → List Ty → Prop
  | nil : Values bind [] []
  | cons {p gs us vs} : bind p us → Values bind gs vs → Values bind (p :: gs) (us ++ vs)

/-- The class with row `i` of assembly `b`, with the classes around it (`Verif.Model.Host`, C89),
    where `bind` tells what the type parameters stand for. -/
inductive Self (S : System) (b : Nat) (bind : Nat → List Ty → Prop) : Nat → Ty → Prop
  | plain {i} : Host.hostOfClass (S.tables b) i = none → Params (S.tables b) i [] →
      Self S b bind i (.cls b i)
  | plainIn {i j} : Host.hostOfClass (S.tables b) i = some j → Params (S.tables b) i [] →
      Self S b bind j (.cls b j) → Self S b bind i (.cls b i)
  | inst {i gs us} : Host.hostOfClass (S.tables b) i = none → Params (S.tables b) i gs →
      gs ≠ [] → Values bind gs us → Self S b bind i (.inst b i none us)
  | instIn {i j gs us u} : Host.hostOfClass (S.tables b) i = some j →
      Params (S.tables b) i gs → Self S b bind j u →
      (gs ≠ [] ∨ ∃ h vs, u = .inst b j h vs) → Values bind gs us →
      Self S b bind i (.inst b i (some u) us)

/-- The values `m` that the virtual machine has for type parameters are what `bind` says. -/
def Agrees (P : Pool) (m : Mgr) (t : Tables) (bind : Nat → List Ty → Prop) : Prop :=
  ∀ p us, bind p us →
    (¬ Pack t p → ∃ o u, us = [u] ∧ m.typeAt (nameOf t p) = some o ∧ Is P o u) ∧
    (Pack t p → AreAll P (m.pick (nameOf t p)) us)

/-- The compiler can read the tables. -/
def Readable (t : Tables) : Prop := ∃ g, read t = .ok g

/-- The objects and the values of type parameters the virtual machine has at some time: it
    begins with none, looks up references, and collects the values of the type parameters of
    types and of generic methods. -/
inductive Reached (S : System) : Pool → List Mgr → Prop
  | start : Reached S [] [{}]
  | type {P ms m a n r o P'} : Reached S P ms → m ∈ ms →
      getType S a m n r P = .ok (o, P') → Reached S P' ms
  | importType {P ms m a n x P'} : Reached S P ms → x ∈ P →
      importType S a n x P = .ok (m, P') → Reached S P' (m :: ms)
  | importMethod {P ms m n a gs x args P'} : Reached S P ms → x ∈ P →
      (∀ o ∈ args, o < P.length) → importMethod S n a gs x args P = .ok (m, P') →
      Reached S P' (m :: ms)
  | toGeneric {P ms m a b n i o P'} : Reached S P ms → m ∈ ms →
      toGeneric S a m b n i P = .ok (o, P') → Reached S P' ms

end Verif.Rt.Spec
