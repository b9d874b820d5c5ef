/-
Shared definitions.
-/
namespace Cio

/-- `enum cio_error`, error_code.h 49-75, with the Linux values of `errno`. -/
abbrev Err := Int

def SUCCESS : Err := 0
def EOF : Err := 1
def INVALID_ARGUMENT : Err := -22
def MESSAGE_TOO_LONG : Err := -90
def OPERATION_NOT_PERMITTED : Err := -1
def OPERATION_ABORTED : Err := -125
def WOULDBLOCK : Err := -11
def NO_BUFFER_SPACE : Err := -105
def NO_MEMORY : Err := -12

end Cio
