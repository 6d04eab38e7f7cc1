import Verif.NetUtil

/-!
# Resolving a host name and the IPv6 prefix of the requester's queue

Models /repo/net/dns.c:99-141 (`__queue_resolve_async_reply`: before the reply is queued, every IPv6
address found is made the prefix of the requester's queue) together with aosl_mpq_set_ipv6_prefix_on_q
(/repo/net/ipv6.c:194-216, modelled in NetUtil.updatePrefix).
-/

namespace Verif.DnsPrefix
open Verif.Words (Endian)
open Verif.NetUtil (Bytes Prefix updatePrefix AF_INET6)

/-- One resolved address as stored in the requester's array (dns.c:79-97): only family and address. -/
structure Found where
  fam : Nat
  addr : Bytes

/-- dns.c:122-130: `v6`: the build has CONFIG_AOSL_IPV6; `there`: the requester's queue still exists
(ipv6.c:199-203 refuses otherwise); `mem`: an allocation succeeds. -/
def reply (e : Endian) (v6 there mem : Bool) (q : Prefix) : List Found → Prefix
  | [] => q
  | f :: l =>
    reply e v6 there mem
      (if v6 = true ∧ there = true ∧ f.fam = AF_INET6 then updatePrefix e mem q (some f.addr) else q) l

/-- What happens to the prefix of a queue. Belongs to the model of net/dns.c:99-141, net/ipv6.c:194-216. -/
inductive Op
  /-- aosl_mpq_set_ipv6_prefix_on_q -/
  | set (a : Option Bytes) (mem : Bool)
  /-- the answer to a resolve request of the queue arrives -/
  | resolved (found : List Found) (mem : Bool)

/-- What one event does, in the model of net/dns.c:99-141, net/ipv6.c:194-216. -/
def step (e : Endian) (v6 : Bool) (q : Prefix) : Op → Prefix
  | .set a mem => updatePrefix e mem q a
  | .resolved found mem => reply e v6 true mem q found

/-- One event after the other, in the model of net/dns.c:99-141, net/ipv6.c:194-216; no code of its own. -/
def run (e : Endian) (v6 : Bool) (q : Prefix) (ops : List Op) : Prefix := ops.foldl (step e v6) q

end Verif.DnsPrefix
