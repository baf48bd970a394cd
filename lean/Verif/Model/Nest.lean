/-
Nested `Sequential`s, and adding members to a `Sequential` after construction.
-/
import Verif.Model.Container

set_option autoImplicit false

namespace CoInf

/-- The members of one `Sequential` followed by those of another. -/
def Chain.append : {I J O : Sig} → Chain I J → Chain J O → Chain I O
  | _, _, _, .single m, c => .cons m c
  | _, _, _, .cons m c1, c => .cons m (c1.append c)

mutual
/-- What a member of a `Sequential` can be: any module, or a `Sequential` again
(container.py:609-628 takes arbitrary modules as members). -/
inductive Nest : Sig → Sig → Type 1 where
  | mod {I O : Sig} (m : CoMod I O) : Nest I O
  | seq {I O : Sig} (c : NestChain I O) : Nest I O
/-- The arguments of one call of the constructor `Sequential(...)`. -/
inductive NestChain : Sig → Sig → Type 1 where
  | single {I O : Sig} (n : Nest I O) : NestChain I O
  | cons {I J O : Sig} (n : Nest I J) (c : NestChain J O) : NestChain I O
end

mutual
/-- The object the nested constructor calls give: container.py:609-628. -/
def Nest.build : {I O : Sig} → Nest I O → CoMod I O
  | _, _, .mod m => m
  | _, _, .seq c => Sequential.mod c.build
/-- The members of the outer `Sequential`. -/
def NestChain.build : {I O : Sig} → NestChain I O → Chain I O
  | _, _, .single n => .single n.build
  | _, _, .cons n c => .cons n.build c.build
end

mutual
/-- The innermost members, from left to right. -/
def Nest.leaves : {I O : Sig} → Nest I O → Chain I O
  | _, _, .mod m => .single m
  | _, _, .seq c => c.leaves
/-- The innermost members, from left to right. -/
def NestChain.leaves : {I O : Sig} → NestChain I O → Chain I O
  | _, _, .single n => n.leaves
  | _, _, .cons n c => n.leaves.append c.leaves
end

end CoInf
