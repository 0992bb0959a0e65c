#!/usr/bin/env python3
"""Seed one bug in a scratch copy of the model, rebuild, log which theorems fail.
usage: mutate.py SPEC.json   (list of {file, old, new, definition, edit, claim, tightened?})
Results are appended to /verif/seeded/LOG.jsonl."""
import json,sys,os,re,subprocess,shutil
SCR='/tmp/scratch/lean'
SRC=os.environ.get('MUT_SRC','/verif/lean')   # a snapshot can be used instead
def sync():
    os.makedirs(SCR,exist_ok=True)
    subprocess.check_call(['rsync','-a','--delete',SRC+'/',SCR+'/']) if shutil.which('rsync') else (shutil.rmtree(SCR),shutil.copytree(SRC,SCR,symlinks=True))
def decl_at(path,line):
    ls=open(path).read().split('\n')
    for i in range(min(line,len(ls))-1,-1,-1):
        m=re.match(r'\s*(?:private |protected |@\[[^\]]*\] )*(theorem|lemma|def|example|instance|structure|inductive)\b\s*([^\s:({\[]*)',ls[i])
        if m: return (m.group(2) or 'example')
    return '?'
def build():
    if os.environ.get('MUT_FAST'):      # stop at the first module that fails
        pr=subprocess.Popen(['lake','build'],cwd=SCR,stdout=subprocess.PIPE,stderr=subprocess.STDOUT,text=True,start_new_session=True)
        out='';bad=set()
        for line in pr.stdout:
            out+=line
            m=re.match(r'error: (Verif/\S+)\.lean:\d+',line)
            if m: bad.add(m.group(1).replace('/','.'))
            if bad and 'Lean exited with code' in line: break
        if bad:
            os.killpg(pr.pid,9); out+=''.join('- '+b+'\n' for b in bad)
        pr.wait(); p=pr
    else:
        p=subprocess.run(['lake','build'],cwd=SCR,capture_output=True,text=True)
        out=p.stdout+p.stderr
    failed=set()
    for m in re.finditer(r'error: (Verif/\S+\.lean):(\d+):\d+',out):
        failed.add(decl_at(os.path.join(SCR,m.group(1)),int(m.group(2)))+' ('+m.group(1)+')')
    mods=set(re.findall(r'^- (Verif\.\S+)',out,re.M))
    return p.returncode,sorted(failed),sorted(mods),out
deps=None
def dependents(mods):
    g={}
    for root,_,fs in os.walk(os.path.join(SRC,'Verif')):
        for f in fs:
            if f.endswith('.lean'):
                path=os.path.join(root,f); m=os.path.relpath(path,SRC)[:-5].replace('/','.')
                g[m]=re.findall(r'^import (Verif\.\S+)',open(path).read(),re.M)
    bad=set(mods); ch=True
    while ch:
        ch=False
        for m,i in g.items():
            if m not in bad and set(i)&bad: bad.add(m); ch=True
    return sorted(m for m in bad if '.Props.' in m)
specs=json.load(open(sys.argv[1]))
log=[]
for s in specs:
    sync()
    p=os.path.join(SCR,s['file']); t=open(p).read()
    if t.count(s['old'])!=s.get('count',1): print('BAD SPEC',s['definition'],t.count(s['old'])); continue
    open(p,'w').write(t.replace(s['old'],s['new']))
    rc,failed,mods,out=build()
    if rc==0: print('SURVIVED',s['definition'],'|',s['edit']); 
    else: print('killed',s['definition'],'|',s['edit'],'|',failed[:6])
    rec=dict(definition=s['definition'],edit=s['edit'],claim_broken=s['claim'],theorems_failed=failed,property_modules_no_longer_building=dependents(mods),theorems_tightened=s.get('tightened',[]),survived=(rc==0))
    if s.get('note'): rec['note']=s['note']
    if rc!=0 or s.get('log_survivor'):
        open('/verif/seeded/LOG.jsonl','a').write(json.dumps(rec)+'\n')
    else: log.append(rec)
print(json.dumps(log,indent=1))
