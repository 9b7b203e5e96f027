import Verif.Model.Respool

/-! # What the users of the pool rely on -/

namespace Verif.Respool

/-- No object is handed out that is in use: `held` are the objects in use before. -/
def Exclusive (held : List Nat) : List Event → Prop
  | [] => True
  | .got obj :: es => obj ∉ held ∧ Exclusive (obj :: held) es
  | .released obj :: es => obj ∈ held ∧ Exclusive (held.erase obj) es
  | .refused obj :: es => obj ∉ held ∧ Exclusive held es
  | .assertion :: _ => False

/-- The creator never gives an object that it gave before and that was not destroyed since. -/
def FreshAt (p : Pool) : Call → Prop
  | .acquire fresh => p.made.count fresh = p.gone.count fresh
  | .release _ => True

/-- So for every call. -/
def Fresh : Pool → List Call → Prop
  | _, [] => True
  | p, c :: cs => FreshAt p c ∧ Fresh (p.step c).1 cs

end Verif.Respool
