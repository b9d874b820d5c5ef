import Verif.Common
/-
Model of address initialisation: /repo/lib/src/platform/linux/unix_address.c, /repo/lib/src/platform/shared/inet_address_impl.c,
/repo/lib/src/platform/shared/socket_address_impl.c, with the layouts of x86-64 Linux.

Memory is modelled byte by byte: an object is the list of its bytes, reading or writing outside of it gives `none`.
Null pointers are `none` in the argument.
-/
namespace Cio.Address

def ADDRESS_FAMILY_NOT_SUPPORTED : Err := -97

def AF_UNIX : Nat := 1
def AF_INET : Nat := 2
def AF_INET6 : Nat := 10

abbrev Bytes := List UInt8

/-- `memcpy(obj + off, src, src.length)`. -/
def write (obj : Bytes) (off : Nat) (src : Bytes) : Option Bytes :=
  if off + src.length ≤ obj.length then some (obj.take off ++ src ++ obj.drop (off + src.length)) else none

/-- Reading `n` bytes at the beginning of an object. -/
def read (obj : Bytes) (n : Nat) : Option Bytes := if n ≤ obj.length then some (obj.take n) else none

/-- `strlen`: `none` if the object ends before a zero byte. -/
def strlen (obj : Bytes) : Option Nat :=
  match obj with
  | [] => none
  | b :: l => if b = 0 then some 0 else (strlen l).map (· + 1)

/-- A 16 bit number in the byte order of the host (x86-64: little endian). -/
def host16 (n : Nat) : Bytes := [UInt8.ofNat (n % 256), UInt8.ofNat (n / 256 % 256)]

/-- `cio_htobe16` stored in memory, see Verif/Endian. -/
def be16 (n : Nat) : Bytes := [UInt8.ofNat (n / 256 % 256), UInt8.ofNat (n % 256)]

/-- `struct cio_socket_address`: the bytes of the union `sa` (its size is that of `struct sockaddr_un`, rounded up), and `len`. -/
structure SockAddr where
  sa : Bytes
  len : Nat
  deriving DecidableEq, Repr

def unionSize : Nat := 112
def sockaddrUnSize : Nat := 110
def sunPathSize : Nat := 108
def sunPathOffset : Nat := 2

/-- `path_length`, unix_address.c 42-45 and 53-59. -/
def udsPathLength (path : Bytes) : Option Nat :=
  match path with
  | [] => none
  | b :: l => if b = 0 then (strlen l).map (· + 1) else (strlen (b :: l)).map (· + 1)

/-- `cio_init_uds_socket_address`, unix_address.c 47-71. -/
def initUds (a : Option SockAddr) (path : Option Bytes) : Option (Err × Option SockAddr) :=
  match a, path with
  | some a, some path => do
    let pathLength ← udsPathLength path
    if pathLength > sunPathSize then some (INVALID_ARGUMENT, some a)
    else do
      let sa ← write a.sa 0 (List.replicate sockaddrUnSize 0)
      let sa ← write sa 0 (host16 AF_UNIX)
      let src ← read path pathLength
      let sa ← write sa sunPathOffset src
      some (SUCCESS, some { sa := sa, len := sunPathOffset + pathLength })
  | a, _ => some (INVALID_ARGUMENT, a)

/-- `struct cio_inet_address`: the family and the bytes of the union of `struct in_addr` and `struct in6_addr`. -/
structure InetAddr where
  family : Nat
  bytes : Bytes
  deriving DecidableEq, Repr

/-- `cio_init_inet_address`, inet_address_impl.c 57-76; `address`: the object the pointer refers to, `n`: `address_length`. -/
def initInet (a : Option InetAddr) (address : Option Bytes) (n : Nat) : Option (Err × Option InetAddr) :=
  match a, address with
  | some a, some src =>
    if n ≠ 4 ∧ n ≠ 16 then some (INVALID_ARGUMENT, some a)
    else if n = 4 then do
      let b ← write a.bytes 0 (← read src n)
      some (SUCCESS, some { family := AF_INET, bytes := b })
    else do
      let b ← write a.bytes 0 (← read src n)
      some (SUCCESS, some { family := AF_INET6, bytes := b })
  | a, _ => some (INVALID_ARGUMENT, a)

/-- `cio_get_inet_address_any4` and `cio_get_inet_address_any6`, inet_address_impl.c 40-54. -/
def any4 : InetAddr := { family := AF_INET, bytes := List.replicate 16 0 }
def any6 : InetAddr := { family := AF_INET6, bytes := List.replicate 16 0 }

/-- `cio_init_inet_socket_address`, socket_address_impl.c 45-75.  `struct sockaddr_in`: family 0, port 2, address 4, size 16;
`struct sockaddr_in6`: family 0, port 2, flow info 4, address 8, scope 24, size 28. -/
def initInetSock (a : Option SockAddr) (inet : Option InetAddr) (port : Nat) : Option (Err × Option SockAddr) :=
  match a, inet with
  | some a, some inet =>
    if inet.family ≠ AF_INET ∧ inet.family ≠ AF_INET6 then some (ADDRESS_FAMILY_NOT_SUPPORTED, some a)
    else if inet.family = AF_INET then do
      let sa ← write a.sa 0 (List.replicate 16 0)
      let sa ← write sa 4 (← read inet.bytes 4)
      let sa ← write sa 2 (be16 port)
      let sa ← write sa 0 (host16 inet.family)
      some (SUCCESS, some { sa := sa, len := 16 })
    else do
      let sa ← write a.sa 0 (List.replicate 28 0)
      let sa ← write sa 8 (← read inet.bytes 16)
      let sa ← write sa 2 (be16 port)
      let sa ← write sa 0 (host16 inet.family)
      some (SUCCESS, some { sa := sa, len := 28 })
  | a, _ => some (INVALID_ARGUMENT, a)

/-- `cio_socket_address_get_family`, socket_address_impl.c 40-43. -/
def getFamily (a : SockAddr) : Option Nat := do
  let b ← read a.sa 2
  match b with
  | [x, y] => some (x.toNat + 256 * y.toNat)
  | _ => none

/-- `is_standard_uds_socket`, server_socket.c 158-169. -/
def isStandardUds (a : SockAddr) : Option Bool := do
  let f ← getFamily a
  if f ≠ AF_UNIX then some false
  else do
    let p ← a.sa[2]?
    some (p != 0)

end Cio.Address
