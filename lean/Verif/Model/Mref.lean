import Verif.Model.Rt

/-
  How the virtual machine finds a method of another assembly that a reference names:
  modules/rt/rt.cpp, `__get_method` and `rt_method_t::compare_to`.
-/

namespace Verif.Mref

open Verif.Asm Verif.Rt

/-- include/modules/rt.h:2046-2061, `method_prototype_t`: the name, the number of type parameters, the type of
    the result and the kinds and types of the parameters. -/
structure Proto where
  name : String
  count : Nat
  ret : Option Obj
  params : List (Nat × Option Obj)
deriving DecidableEq, Repr

/-- modules/rt/rt.cpp:2838-2848, the loop over the parameters of the reference. -/
def protoParams (S : System) (a : Nat) (m : Mgr) (fuel : Nat) : List Nat → Pool →
    Except Rt.Err (List (Nat × Option Obj) × Pool)
  | [], P => .ok ([], P)
  | g :: gs, P =>
    match rowAt (S.tables a) .methodRefParam g with
    | .error x => .error x
    | .ok row =>
      match Rt.getType S a m fuel (refAt row "type") P with
      | .error x => .error x
      | .ok (o, P) =>
        match protoParams S a m fuel gs P with
        | .error x => .error x
        | .ok (ps, P) => .ok ((numAt row "ptype", o) :: ps, P)

/-- modules/rt/rt.cpp:429-435, `is_place_holder`. -/
def isPlaceHolder (P : Pool) : Option Obj → Except Rt.Err Bool
  | some o => match P[o]? with
    | some (.holder _) => .ok true
    | _ => .ok false
  | none => .error .assertion

/-- modules/rt/rt.cpp:1972-1995, the loop of `compare_to` over the parameters. -/
def compareParams (S : System) (b : Nat) (m : Mgr) (fuel : Nat) :
    List Nat → List (Nat × Option Obj) → Pool → Except Rt.Err (Bool × Pool)
  | [], _, P => .ok (true, P)
  | _ :: _, [], _ => .error .pastEnd
  | g :: gs, (k, o) :: ps, P =>
    match rowAt (S.tables b) .param g with
    | .error x => .error x
    | .ok row =>
      if numAt row "param_type" ≠ k then .ok (false, P)
      else
        match packName (S.tables b) (refAt row "type") with
        | .error x => .error x
        | .ok (some _) =>
          match isPlaceHolder P o with
          | .error x => .error x
          | .ok r => .ok (r, P)
        | .ok none =>
          match Rt.getType S b m fuel (refAt row "type") P with
          | .error x => .error x
          | .ok (o', P) => if o' ≠ o then .ok (false, P) else compareParams S b m fuel gs ps P

/-- modules/rt/rt.cpp:1950-1998, `compare_to`: the method with row `i` of assembly `b`. -/
def compareTo (S : System) (b : Nat) (m : Mgr) (fuel : Nat) (i : Nat) (p : Proto) (P : Pool) :
    Except Rt.Err (Bool × Pool) :=
  let row := rowOf (S.tables b) (.method, i)
  if textAt row "name" ≠ p.name then .ok (false, P)
  else if p.count ≠ (refAt row "generic_params").count then .ok (false, P)
  else if p.params.length ≠ (refAt row "params").count then .ok (false, P)
  else
    match Rt.getType S b m fuel (refAt row "type") P with
    | .error x => .error x
    | .ok (o, P) =>
      if p.ret ≠ o then .ok (false, P)
      else compareParams S b m fuel (rows (refAt row "params")) p.params P

/-- modules/rt/rt.cpp:2853-2858 with 616-623, `each_method`: the methods of the class, in order,
    until one has the prototype. -/
def findMethod (S : System) (b : Nat) (m : Mgr) (fuel : Nat) (p : Proto) : List Nat → Pool →
    Except Rt.Err (Option Nat × Pool)
  | [], P => .ok (none, P)
  | i :: is, P =>
    if i ≥ (S.tables b .method).length then .error .overflow
    else
      match compareTo S b m fuel i p P with
      | .error x => .error x
      | .ok (true, P) => .ok (some i, P)
      | .ok (false, P) => findMethod S b m fuel p is P

/-- `get_assembly` of a type and the class whose methods are looked at: of an instance those of
    its template (modules/rt/rt.cpp:1393-1407).  The methods the virtual machine adds to tuples
    are not modelled. -/
def classOf (P : Pool) : Shape → Option (Nat × Nat)
  | .general b i => some (b, i)
  | .generic ot _ _ => match P[ot]? with
    | some (.general b i) => some (b, i)
    | _ => none
  | _ => none

/-- modules/rt/rt.cpp:2803-2863, `__get_method` for a reference to a method of another
    assembly: its assembly and its row.  `m0` are the values of type parameters where the
    reference occurs. -/
def getMethod (S : System) (a : Nat) (m0 : Mgr) (fuel : Nat) (r : Ref) (P : Pool) :
    Except Rt.Err ((Nat × Nat) × Pool) :=
  match rowAt (S.tables a) .methodRef r.index with
  | .error x => .error x
  | .ok row =>
    match Rt.getType S a m0 fuel (refAt row "host") P with
    | .error x => .error x
    | .ok (none, _) => .error .assertion
    | .ok (some o, P) =>
      match P[o]? with
      | none => .error .null
      | some x =>
        match classOf P x with
        | none => .error .null
        | some (b, i) =>
          if b = a then .ok ((b, r.index), P)
          else
            match importType S b fuel x P with
            | .error e => .error e
            | .ok (m, P) =>
              match Rt.getType S a m fuel (refAt row "type") P with
              | .error e => .error e
              | .ok (ret, P) =>
                match protoParams S a m fuel (rows (refAt row "params")) P with
                | .error e => .error e
                | .ok (ps, P) =>
                  match findMethod S b m fuel ⟨textAt row "name",
                      numAt row "generic_param_count", ret, ps⟩
                      (rows (refAt (rowOf (S.tables b) (.type, i)) "methods")) P with
                  | .error e => .error e
                  | .ok (none, _) => .error .assertion
                  | .ok (some k, P) => .ok ((b, k), P)

end Verif.Mref
