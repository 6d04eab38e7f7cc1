"""Writes seeded/LOG.jsonl from the results of the mutation runs (raw results outside the repository) and the hand-made edits of seeded_hand.jsonl.
usage: gen_seeded.py mutres.jsonl mutres2.jsonl deps.txt"""
import json,sys,os,re,collections
here=os.path.dirname(os.path.abspath(__file__)); root=os.path.dirname(here)
R=[json.loads(l) for l in open(sys.argv[1])]
R2={}
if os.path.exists(sys.argv[2]):
    for l in open(sys.argv[2]):
        x=json.loads(l); R2[x['idx']]=x
title={}
for l in open(f'{root}/properties.jsonl'):
    x=json.loads(l); title[x['id']]=x['title']
cid=lambda n: re.match(r'C\d+',n.split('.')[-1]).group(0)
deps={}   # constant -> set of C-theorems depending on it
for l in open(sys.argv[3]):
    w=l.split()
    if not w or not w[0].startswith('Verif.'): continue
    for c in w: deps.setdefault(c,set()).add(w[0])
bylast=collections.defaultdict(set)
for c in deps: bylast[c.split('.')[-1]].add(c); bylast['.'.join(c.split('.')[-2:])].add(c)
ns={}
for f in os.listdir(f'{root}/lean/Verif'):
    s=open(f'{root}/lean/Verif/{f}').read()
    m=re.findall(r'^namespace (\S+)',s,re.M); ns[f[:-5]]=m[0] if m else 'Verif'
def full(e):
    mod,d=e.split('.',1)
    return f"{ns.get(mod,'Verif')}.{d}"
def claims(errs,defname,mod):
    own=[full(e) for e in errs if re.match(r'C\d+_',e.split('.',1)[1])]
    if own: return sorted({cid(x) for x in own},key=lambda c:int(c[1:]))
    s=set()
    for e in errs:
        if e.split('.',1)[1].startswith('example'): continue
        for t in deps.get(full(e),()): s.add(cid(t))
    if not s:
        for t in deps.get(f"{ns[mod]}.{defname}",()): s.add(cid(t))
    return sorted(s,key=lambda c:int(c[1:]))
notes={}
if os.path.exists(f'{here}/survivors.json'): notes=json.load(open(f'{here}/survivors.json'))
key=lambda r: f"{r['file'][:-5]}|{r['d']}|{r['old_line']}|{r['new_line']}"
out=[];cnt=collections.Counter();todo=[]
for i,r in enumerate(R):
    if r['st'] in('invalid','timeout'): continue
    mod=r['file'][:-5]
    rec={"definition":f"{ns[mod]}.{r['d']}","edit":f"{r['old_line'].strip()}  ==>  {r['new_line'].strip()}"}
    thms=[full(e) for e in r['errs'] if not e.split('.',1)[1].startswith('example')]
    if r['st']=='killed':
        cs=claims(r['errs'],r['d'],mod)
        rec.update(claim=[f"{c}: {title.get(c,'')}" for c in cs],failed=thms,tightened=[],outcome="caught")
    else:
        x=R2.get(i)
        if x and x['st']=='killed':
            t2=[full(e) for e in x['errs'] if not e.split('.',1)[1].startswith('example')]
            cs=claims(x['errs'],r['d'],mod)
            rec.update(claim=[f"{c}: {title.get(c,'')}" for c in cs],failed=[],tightened=t2,outcome="missed at first; the theorems under 'tightened' were added or strengthened and fail on it now")
        elif not x or x['st'] in('survived','example_only'):
            n=notes.get(key(r))
            if n is None: todo.append((i,key(r),r['st'])); cnt['todo']+=1; continue
            rec.update(claim=[],failed=[],tightened=[],outcome="still proves: "+n)
        else: continue
    cnt[rec['outcome'][:12]]+=1
    out.append(rec)
if os.path.exists(f'{here}/seeded_hand.jsonl'):
    for l in open(f'{here}/seeded_hand.jsonl'):
        if l.strip(): out.append(json.loads(l)); cnt['hand']+=1
with open(f'{root}/seeded/LOG.jsonl','w') as f:
    for x in out: f.write(json.dumps(x,ensure_ascii=False)+'\n')
print(dict(cnt))
if len(sys.argv)>4:
    for t in todo: print(*t,sep='\t')
allc=set(title); seen=set()
for x in out:
    for c in x['claim']: seen.add(c.split(':')[0])
print('claims never broken by a caught edit:',sorted(allc-seen,key=lambda c:int(c[1:])))
