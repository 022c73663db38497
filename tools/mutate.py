#!/usr/bin/env python3
"""Seeded-bug testing. usage: mutate.py mutations.json  (list of {id,file,def,old,new,claim}).
Works in /tmp/mut (copy of /verif/lean with its build output).  Appends to /verif/seeded/LOG.jsonl."""
import json, re, subprocess, sys, shutil, os
SRC='/verif/lean/Verif/'; DST='/tmp/mut/Verif/'
def sync():
    subprocess.run(['rsync','-a','--delete',SRC,DST],check=False) if shutil.which('rsync') else (shutil.rmtree(DST),shutil.copytree(SRC,DST))
    shutil.copy('/verif/lean/Verif.lean','/tmp/mut/Verif.lean')
def enclosing(f,line):
    ls=open('/tmp/mut/'+f).read().split('\n')[:line]
    for l in reversed(ls):
        m=re.match(r'\s*(?:private |protected |@\[[^\]]*\] ?)*(theorem|def|example|instance|abbrev|lemma)\s*([^\s:(\{\[]*)',l)
        if m: return (m.group(1)+' ' if m.group(1)!='theorem' else '')+m.group(2)
    return '?'
def run(m):
    sync()
    p=DST+m['file']; t=open(p).read()
    if t.count(m['old'])!=1: return None,'old text occurs %d times'%t.count(m['old'])
    open(p,'w').write(t.replace(m['old'],m['new']))
    r=subprocess.run(['lake','build'],cwd='/tmp/mut',capture_output=True,text=True)
    out=r.stdout+r.stderr
    bad=[]
    for x in re.finditer(r'error: (Verif/\S+?\.lean):(\d+):',out):
        n=os.path.basename(x.group(1))[:-5]+'.'+enclosing(x.group(1),int(x.group(2))).strip()
        if x.group(1).startswith('Verif/Props/') or x.group(1).startswith('Verif/Lemmas/') : n=x.group(1)[6:-5]+': '+n.split('.',1)[1]
        else: n=x.group(1)[6:-5]+': '+n.split('.',1)[1]
        if n not in bad: bad.append(n)
    return r.returncode,bad
muts=json.load(open(sys.argv[1])); only=set(sys.argv[2:])
for m in muts:
    if only and m['id'] not in only: continue
    rc,bad=run(m)
    if rc is None: print(m['id'],'NOT APPLIED',bad); continue
    print(m['id'],'SURVIVED' if rc==0 else 'killed',bad[:6],flush=True)
    with open('/verif/seeded/LOG.jsonl','a') as f:
        f.write(json.dumps({"id":m['id'],"definition":m['file'][:-5]+': '+m['def'],"edit":m['old']+'  ==>  '+m['new'],
          "breaks":m['claim'],"failed":bad,"tightened":m.get('tightened',[]),**({"note":m['note']} if 'note' in m else {}),
          **({"survived":True} if rc==0 else {})},ensure_ascii=False)+'\n')
sync()
