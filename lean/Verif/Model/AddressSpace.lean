/-!
# Model of `c++/nda/mem/address_space.hpp`: promotion of address spaces
-/
namespace Nda.AddressSpace

/-- `enum class AddressSpace`, address_space.hpp:43. -/
inductive Addr where
  | none | host | device | unified
deriving DecidableEq, Repr

/-- The value of the enumerator, used by `std::max` in `combine` (address_space.hpp:43: "Do not change order"). -/
def Addr.toNat : Addr → Nat
  | .none => 0
  | .host => 1
  | .device => 2
  | .unified => 3

/-- `std::max` on the enumeration (external). -/
def stdMax (a b : Addr) : Addr := if a.toNat < b.toNat then b else a

/-- The condition of the `static_assert` in `combine`, address_space.hpp:61-62. -/
def promotable (a b : Addr) : Bool := !(a == .host && b == .device) && !(a == .device && b == .host)

/-- `combine<A1, A2, AN...>`, address_space.hpp:60-67; `none`: the `static_assert` fails.  With one argument
`A2` is `None`. -/
def combine : Addr → List Addr → Option Addr
  | a, [] => if promotable a .none then some (stdMax a .none) else none
  | a, [b] => if promotable a b then some (stdMax a b) else none
  | a, b :: c :: an => if promotable a b then combine (stdMax a b) (c :: an) else none

/-- Types with an address space: scalars and other types (None, address_space.hpp:51-56), arrays and handles in memory
(73-77), binary expressions, calls of a mapped function with at least one array, unary expressions (79-86). -/
inductive Ty where
  | scalar
  | array (a : Addr)
  | expr (l r : Ty)
  | call (a : Ty) (as : List Ty)
  | unary (a : Ty)

mutual
/-- `get_addr_space`, address_space.hpp:51-86. -/
def addrSpace : Ty → Option Addr
  | .scalar => some .none
  | .array a => some a
  | .expr l r => do combine (← addrSpace l) [← addrSpace r]
  | .call a as => do combine (← addrSpace a) (← addrSpaces as)
  | .unary a => addrSpace a
/-- `get_addr_space<As>...`. -/
def addrSpaces : List Ty → Option (List Addr)
  | [] => some []
  | a :: as => do return (← addrSpace a) :: (← addrSpaces as)
end

/-- `on_host`, `on_device`, `on_unified` of one type, address_space.hpp:97-110. -/
def onHost (a : Addr) : Bool := a == .host
def onDevice (a : Addr) : Bool := a == .device
def onUnified (a : Addr) : Bool := a == .unified

/-- `have_same_addr_space`, address_space.hpp:112-114. -/
def haveSame (a0 : Addr) (as : List Addr) : Bool := as.all (fun a => a0 == a)

/-- `have_host_compatible_addr_space`, address_space.hpp:116-118. -/
def haveHost (as : List Addr) : Bool := as.all (fun a => onHost a || onUnified a)

/-- `have_device_compatible_addr_space`, address_space.hpp:120-122. -/
def haveDevice (as : List Addr) : Bool := as.all (fun a => onDevice a || onUnified a)

/-- `have_compatible_addr_space`, address_space.hpp:124-126. -/
def haveCompatible (as : List Addr) : Bool := haveHost as || haveDevice as

end Nda.AddressSpace
