#!/usr/bin/env python3
"""DESIGN.md = head + per-property table (properties.jsonl, MANIFEST.json) + findings + axioms (tools/axioms.txt)."""
import json, os
V=os.path.dirname(os.path.dirname(os.path.abspath(__file__)))
props=[json.loads(l) for l in open(V+'/properties.jsonl')]
man={c['property']:c for c in json.load(open(V+'/MANIFEST.json'))['claims']}
ax={}
for l in open(V+'/tools/axioms.txt'):
    n,a=l.rstrip('\n').split(' ',1); ax[n]=a
HOW={ # module -> proof technique
'RBTree':'refinement to a stable sorted list; red-black invariant by induction on the zipper path','DList':'representation predicate for disjoint rings, induction over histories',
'Psb':'invariant over call histories, refinement to a byte queue','Bitmap':'refinement to a set of indices','IdTable':'invariant over histories','Marshal':'mutual structural induction over descriptors and values',
'DynArray':'functional refinement on an explicit heap','Timer':'invariants over histories of the timer base','TimerRef':'transition system of handles, references and queue steps','RefObj':'inductive invariant, any number of threads',
'Mpq':'inductive invariants over all interleavings, ghost log','Wakeup':'inductive invariant + decreasing measure','Pool':'inductive invariants over all interleavings','IoWrite':'refinement to a byte stream','IoRead':'invariant of the read loop, refinement to packet splitting',
'IoBoth':'invariant of the dispatch on top of IoRead','Iomp':'functional characterisation for every readiness','Arm':'inductive invariant','Dispatch':'induction over the batch with arbitrary changes in between','FdTab':'inductive invariant over histories',
'RwLock':'inductive invariant over atomic steps, any number of threads','KLocks':'inductive invariants over atomic steps','Tls':'refinement to a map','Errno':'inductive invariant over interleavings','Mm':'invariant, concrete violating runs','MemApi':'arithmetic case analysis','Lifecycle':'inductive invariant',
'WaitTime':'arithmetic, induction over interruptions','MarshalMem':'invariant by induction over types and wire, refinement to an ownership relation','Words':'bit-vector arithmetic','Inet':'induction over characters','NetUtil':'case analysis over all addresses','Route':'induction over route events','Netifs':'refinement to a map','OnQ':'case analysis, induction over arguments','Netlink':'refinement of the byte parser to lists of messages; invariants for arbitrary bytes','ThreadApi':'case analysis, transition systems','SysApi':'arithmetic and case analysis','RBWalk':'induction over trees and the pointer graph','RefNode':'inductive invariant over histories','NetSub':'inductive invariant over histories','QHandle':'bit-vector arithmetic on top of the invariant of IdTable','RunQuery':'mutual induction over nested invocations','PoolIdle':'refinement to a list function, counterexample','QWait':'inductive invariant over all interleavings, termination measure','QFlags':'bitwise induction over changes; inductive invariant over interleavings','TimerApi':'case analysis over all arguments; induction over histories','CurQ':'inductive invariant over histories; induction over events','CondSim':'inductive invariant, counting argument over histories','PortThread':'inductive invariants over all interleavings; exact counting','PortTime':'arithmetic over all numbers','PortAtomic':'linearisation: inductive invariant over all interleavings, replay','PortSock':'induction over the results; case analysis over ports','PortIomp':'arithmetic; refinement of the filter set by induction over histories','MmPos':'refinement: the table is a function of the live blocks, by induction over histories','QEnd':'invariant over the lives of the thread; negation for the end','SkAddr':'refinement to a byte layout; round trip', 'PortMem':'invariant over histories; witnesses', 'MpqDead':'a decreasing measure over all internal steps (termination), invariants linking waiting callers to queued functions, then every settled state is either all idle or has a closed set of waiting queues; closed sets are inductive',
'QMake':'invariant over histories of create and destroy (permutations of the handles); witnesses for the false parts', 'MpqEnd':'invariant (a destroy under way or done) plus case analysis of settled states', 'FdReg':'invariant over histories; induction over what happens to the fd; witnesses for the false parts', 'PortUtil':'induction over the printing loops; arithmetic of powers of 7 modulo 2^32 for the seed loop; injectivity of hex text', 'PortFile':'invariant (the tree stays a tree), effect of each call on every path, induction over chunks and over nested directories; witnesses for the false parts', 'PortClock': 'the time of day and its text as functions of the system clocks; one statement per port, shown to hold exactly for the ports listed; digits by the base-10 recursion of Nat.toDigits',
 'PortIo':'induction over the rounds of the accept loop; case analysis over the ports; induction over the interfaces; universal refutations for the ports that are wrong', 'PortPrio':'case analysis over ports and classes with the ranges of the system as variables', 'RouteKnow':'simulation invariant between the two buffers, the specification of the network and what the subscriber keeps, by induction over histories; a second invariant for the flags', 'PoolInit':'invariant over steps, induction over the rank of pools, decreasing cost for termination, permanence of the deadlock by invariant','PrefixGet':'refinement to the prefix in force, invariant over the blocks by induction over histories','DnsPrefix':'induction over histories and answers','EncInt':'bytes of the encoded words compared with digits; extensionality on bytes; universal statement about a pair of machines', 'DynSelf':'frame lemma for the reallocation; exact condition for undefined behaviour, otherwise equality with the operation on values', 'PoolFull':'invariants over all histories; a decreasing potential; a quiescence argument under the hypothesis of fewer callers than the limit; universal refutation for every limit', 'MainQ':'one invariant over all steps, uniqueness of the starter included; violations by concrete histories and an absorbing set of states', 'PktMem':'memory as addressed bytes with bounds, disjointness of writes, induction over packets and over partial writes', 'MainEnd':'a circle of waits as an absorbing property of all steps; termination by a measure that every step of the queues lowers, and a case analysis of the states without steps', 'MarshalFwd':'every accepted call is the decoding of a wire form: induction over the recursion depth, with the reading relation of Marshal; the theorems of C21 do the rest', 'PortLock':'a relation between what the callers saw and the lock, kept by every call, by induction over the history; refutations for every port by cases', 'PortCond':'an invariant of all interleavings; a measure that every step but a spurious wake-up lowers; without a variable, the one step left is shown by cases', 'PoolCall':'case analysis over the choice of the queue, itself by induction over the table; universal refutations for the error numbers that are lost', 'RwWait':'a measure lowered by every step of the waiting threads; the starving history is a loop repeated by induction', 'PoolDone':'an invariant of all interleavings: nobody was last yet, or one was and the rest is through; a measure for the end', 'CloseApi':'case analysis over the ways of the call, for every interference of the other threads; the negation with a call that does not get through', 'StatLock':'invariant over interleavings; witnesses for the ports where it fails', 'SockPipe':'invariant over histories','Hal':'exhaustive case analysis over the tables'}
out=[open(V+'/tools/design_head.md').read()]
n={}
for c in man.values(): n[c['status']]=n.get(c['status'],0)+1
out.append('## Properties\n\n%d properties: %s. "Status" is the status of the property *as stated*; a partial one is usually false of the code, and then its violation is a theorem.\n\n| Id | Property | Module | Status | Method | Theorems | Note |\n|---|---|---|---|---|---|---|\n'%(len(props),', '.join('%d %s'%(v,k) for k,v in sorted(n.items(),reverse=True))))
for p in props:
    c=man[p['id']]; mods=[]
    for t in c['theorems']:
        m=t.split('.')[1]
        if m not in mods: mods.append(m)
    how=HOW.get(mods[0],'') if mods else ''
    out.append('| %s | %s | %s | %s | %s | %s | %s |\n'%(p['id'],p['title'],', '.join(mods),c['status'],how,', '.join('`%s`'%t.split('.')[-1] for t in c['theorems']),c.get('note','').replace('|','/')))
out.append('\n')
out.append(open(V+'/tools/design_findings.md').read())
out.append('## Axioms of each property theorem\n\nProduced by `Lean.collectAxioms` on every theorem named `C<digit>…`.\n')
g={}
for k,a in ax.items(): g.setdefault(a,[]).append(k.replace('Verif.','',1))
for a in sorted(g,key=len):
    out.append('\n* `%s` (%d): %s\n'%(a,len(g[a]),', '.join(sorted(g[a]))))
open(V+'/DESIGN.md','w').write(''.join(out))
