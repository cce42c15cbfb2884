import Verif.Model.Config

/-!
# Specification of the parallel types: what is accepted and what should run

Written out type by type, without the bit patterns of the library.
-/

namespace Verif.Spec
open Verif.Model

/-- The types an object takes that can run with threads and on the GPU as the flags say: those whose computing part it has. The plain
distributed type names no computing part. -/
def takes (threads gpu : Bool) : ParType → Bool
  | .SerialOnly | .MPI_Serial => true
  | .OpenMP | .MPI_MP => threads
  | .CUDA | .MPI_CUDA => gpu
  | .MPI => false

/-- Is the type a distributed one? -/
def distributed : ParType → Bool
  | .MPI | .MPI_Serial | .MPI_MP | .MPI_CUDA => true
  | .SerialOnly | .OpenMP | .CUDA => false

/-- The implementation a parallel type names, in the library as compiled. -/
def named (B : Build) : ParType → Impl
  | .SerialOnly | .MPI | .MPI_Serial => .serial
  | .OpenMP | .MPI_MP => if B.openmp then .omp else .serial
  | .CUDA | .MPI_CUDA => if B.cuda then .cuda else .serial

/-- The implementation a parallel type names in a class that has a serial and a multithreaded version only and no distributed one. -/
def namedLocal (B : Build) : ParType → Impl
  | .OpenMP => if B.openmp then .omp else .serial
  | .SerialOnly | .CUDA | .MPI | .MPI_Serial | .MPI_MP | .MPI_CUDA => .serial

/-- The same for a class that also has a GPU version. -/
def namedSingle (B : Build) : ParType → Impl
  | .OpenMP => if B.openmp then .omp else .serial
  | .CUDA => if B.cuda then .cuda else .serial
  | .SerialOnly | .MPI | .MPI_Serial | .MPI_MP | .MPI_CUDA => .serial

/-- A call asking for a parallel type writes it if it is taken, otherwise it changes nothing. -/
def typeWritten {Op : Type*} (threads gpu : Bool) (asked : Op → Option ParType) (o : Op) : Option ParType :=
  (asked o).bind fun t => if takes threads gpu t then some t else none

end Verif.Spec
